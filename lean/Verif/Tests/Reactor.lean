import Verif.Model.Reactor
import Verif.Model.Loop

/-!
# The project's own tests of the reactor, run on the model

The tests in tests/reactor.cpp.  The model of the reactor has its parts: which handler or socket a
message goes to, what is sent to an asynchronous handler and read by its thread, and what is sent back
and read by the loop.  The tests of handlers are run through these parts, and then on the whole reactor
(`Model/Loop.lean`) with one schedule; the sleeping and joining of threads has no counterpart.
-/

namespace Broker.Tests

/-- What a `ROUTER` socket passes to the peer, after a sequence of `send` calls. -/
def passed (frames : List (String × Bool)) : List (List String) :=
  (Router.fresh.sendAll frames).sent.map (·.2)

/-- What the thread of the handler with this name is called with, for a message passed to it. -/
def asyncCall (uid : String) (m : Msg) : List Turn :=
  (passed (asyncFrames uid m)).filterMap fun fs => (threadTurn (recvFrames fs)).map (·.1)

/-- What the loop reads when that thread answers (the `ROUTER` socket puts the name in front). -/
def asyncAnswer (uid : String) (m : Msg) : Option Msg :=
  (recvAsync (recvFrames (uid :: (responseFrames m).map (·.1)))).map (·.1)

/-- The messages a wrapper passes to its socket. -/
def socketSends (m : Msg) : List (String × List String) := (Router.fresh.sendMessage m).sent

/-- termination (lines 132-145): the first frame of the message that ends a handler thread -/
example : (threadTurn (recvFrames [terminateMsg])).map (·.1) = some .stop := by decide +kernel

/-- The reactor of the next two tests: one socket, one handler. -/
def oneHandler : Wiring Nat := (Wiring.empty.addSocket "socket").addHandler ["socket"] 1

/-- synchronous_handler (lines 147-174) -/
example : ((receiveMessage "socket" (recvFrames ["id1", "Hello??"])).map fun r =>
      (r.1, oneHandler.process r.1)) =
      some (⟨"socket", "id1", ["Hello??"]⟩, [.handler 1]) ∧
    oneHandler.send ⟨"socket", "id1", ["Hello!"]⟩ = [.socket "socket"] ∧
    socketSends ⟨"socket", "id1", ["Hello!"]⟩ = [("id1", ["Hello!"])] := by decide +kernel

/-- asynchronous_handler (lines 176-203) -/
example : ((receiveMessage "socket" (recvFrames ["id1", "Hello??"])).map fun r =>
      (oneHandler.process r.1, asyncCall "handler" r.1)) =
      some ([.handler 1], [.request ⟨"socket", "id1", ["Hello??"]⟩]) ∧
    (asyncAnswer "handler" ⟨"socket", "id1", ["Hello!"]⟩).map oneHandler.send =
      some [.socket "socket"] ∧
    (asyncAnswer "handler" ⟨"socket", "id1", ["Hello!"]⟩).map socketSends =
      some [("id1", ["Hello!"])] := by decide +kernel

/-- timers (lines 205-221) -/
example : (Wiring.empty.addHandler [keyTimer] 1).process (timerMsg 100) = [.handler 1] := by
  decide +kernel

/-- The reactor of the last test: two sockets, one handler for the first and two for the second. -/
def threeHandlers : Wiring Nat :=
  ((((Wiring.empty.addSocket "socket_1").addSocket "socket_2").addHandler ["socket_1"] 1).addHandler
    ["socket_2"] 2).addHandler ["socket_2"] 3

/-- multiple_asynchronous_handlers (lines 224-268) -/
example : threeHandlers.process ⟨"socket_1", "id1", ["socket_1"]⟩ = [.handler 1] ∧
    threeHandlers.process ⟨"socket_2", "id1", ["socket_2"]⟩ = [.handler 2, .handler 3] ∧
    ["handler_1", "handler_2a", "handler_2b"].map
      (fun uid => asyncCall uid ⟨"socket_2", "id1", ["socket_2"]⟩) =
      List.replicate 3 [.request ⟨"socket_2", "id1", ["socket_2"]⟩] ∧
    passed ((List.replicate 100 (asyncFrames "handler_1" ⟨"socket_1", "id1", ["socket_1"]⟩)).flatten) =
      List.replicate 100 ["socket_1", "id1", "socket_1"] := by decide +kernel

/-! ## On the whole reactor -/

open Reactor in
/-- `pluggable_handler` (lines 102-128): its state is `received`, it responds with the given
    messages. -/
def pluggable (answers : List Msg) : Obj where
  σ := List Msg
  init := []
  onRequest _ m v := answers.foldr (fun o p => .respond (v ++ [m]) o (fun _ => p)) (.done (v ++ [m]))

open Reactor in
/-- The reactor of synchronous_handler and asynchronous_handler. -/
def helloReactor (isAsync : Bool) : Setup Nat where
  wiring := oneHandler
  isAsync _ := isAsync
  obj _ := pluggable [⟨"socket", "id1", ["Hello!"]⟩]
  uid _ := "handler"
  full _ _ _ := false

open Reactor in
/-- Runs the events. -/
def play {α : Type} [DecidableEq α] (S : Setup α) (evs : List (Ev α)) : Option (St S) :=
  evs.foldlM (fun s ev => St.next ev s) (St.init S)

open Reactor in
/-- Steps of the main thread. -/
def mains {α : Type} (n : Nat) (pick : Option α := none) : List (Ev α) :=
  List.replicate n (.main (fun _ => false) pick)

/-- synchronous_handler: what the handler received and what was sent on the socket -/
example : ((play (helloReactor false) ([.arrive "socket" "id1" ["Hello??"], .poll 0 0] ++ mains 8)).map
    fun s => ((show List Msg from s.obj 1), s.sent, s.stack.length, s.place)) =
    some ([⟨"socket", "id1", ["Hello??"]⟩], [⟨"socket", "id1", ["Hello!"]⟩], 0, .poll) := by
  decide +kernel

/-- asynchronous_handler -/
example : ((play (helloReactor true) ([.connect 1, .arrive "socket" "id1" ["Hello??"], .poll 0 0] ++
      mains 5 ++ [.take 1 (fun _ => false), .thread 1, .thread 1, .poll 0 0] ++ mains 3 (some 1))).map
    fun s => ((show List Msg from s.obj 1), s.sent, s.stack.length, s.place)) =
    some ([⟨"socket", "id1", ["Hello??"]⟩], [⟨"socket", "id1", ["Hello!"]⟩], 0, .poll) := by
  decide +kernel

open Reactor in
/-- The reactor of multiple_asynchronous_handlers. -/
def threeReactor : Setup Nat where
  wiring := threeHandlers
  isAsync _ := true
  obj _ := pluggable []
  uid a := if a = 1 then "handler_1" else if a = 2 then "handler_2a" else "handler_2b"
  full _ _ _ := false

/-- multiple_asynchronous_handlers: `n` messages on each socket, one turn of the loop for each pair, the
    threads handle their messages in the opposite order of registration. -/
def threeSchedule (n : Nat) : List (Reactor.Ev Nat) :=
  [.connect 1, .connect 2, .connect 3] ++
  (List.replicate n [.arrive "socket_1" "id1" ["socket_1"], .arrive "socket_2" "id1" ["socket_2"]]).flatten ++
  (List.replicate n (Reactor.Ev.poll 0 0 :: mains 9)).flatten ++
  (List.replicate n [.take 3 (fun _ => false), .thread 3]).flatten ++
  (List.replicate n [.take 2 (fun _ => false), .thread 2]).flatten ++
  (List.replicate n [.take 1 (fun _ => false), .thread 1]).flatten

/-- multiple_asynchronous_handlers -/
example : ((play threeReactor (threeSchedule 100)).map fun s =>
      [(show List Msg from s.obj 1), s.obj 2, s.obj 3]) =
    some [List.replicate 100 ⟨"socket_1", "id1", ["socket_1"]⟩,
      List.replicate 100 ⟨"socket_2", "id1", ["socket_2"]⟩,
      List.replicate 100 ⟨"socket_2", "id1", ["socket_2"]⟩] := by decide +kernel

end Broker.Tests
