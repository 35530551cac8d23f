import Verif.Model.Zmq
import Verif.Model.Notifier

/-!
# The reactor, its main loop, and the whole broker process

src/reactor/reactor.cpp and src/broker_connect.cpp.  Two threads: the main thread runs the poll loop
and the broker handler, the notifier thread runs `handler_thread` with the status notifier handler.
They share nothing but the in-process socket.  The model is a transition system whose events are
small enough to interleave: a message arrives on a socket, `zmq::poll` returns, the main thread makes
its next step (one message sent, or one message handled, or the timer message handled), the notifier
thread connects its socket, the notifier thread takes and handles one message.
-/

namespace Broker

/-! ## Registration of sockets and handlers -/

/-- The handlers of the broker (`std::shared_ptr<handler_wrapper>`): the broker handler is called
    directly, the status notifier handler through `asynchronous_handler_wrapper`. -/
inductive HandlerRef where
  | broker
  | notifier
  deriving DecidableEq, Repr

/-- `reactor::sockets_` (`std::map`) and `reactor::handlers_` (`std::multimap`); `α` stands for the
    handler objects. -/
structure Wiring (α : Type) where
  sockets : MMap Unit
  handlers : MMap α

/-- A reactor without sockets and handlers. -/
def Wiring.empty {α : Type} : Wiring α := ⟨[], []⟩

/-- `reactor::add_socket` (src/reactor/reactor.cpp:14-17). -/
def Wiring.addSocket {α : Type} (w : Wiring α) (name : String) : Wiring α :=
  { w with sockets := mapEmplace name () w.sockets }

/-- `reactor::add_handler` and `reactor::add_async_handler` (src/reactor/reactor.cpp:19-35). -/
def Wiring.addHandler {α : Type} (w : Wiring α) (origins : List String) (h : α) : Wiring α :=
  { w with handlers := origins.foldl (fun m o => mmEmplace o h m) w.handlers }

/-- The wiring made by the constructor of `broker_connect` (src/broker_connect.cpp:34-41). -/
def brokerWiring : Wiring HandlerRef :=
  ((((Wiring.empty.addSocket keyWorkers).addSocket keyClients).addSocket keyMonitor).addHandler
    [keyClients, keyWorkers, keyTimer] .broker).addHandler [keyNotifier] .notifier

/-! ## Routing -/

/-- Where a message goes. -/
inductive Delivery (α : Type) where
  | socket (key : String)
  | handler (h : α)
  deriving DecidableEq, Repr

/-- `reactor::process_message` (src/reactor/reactor.cpp:49-56). -/
def Wiring.process {α : Type} (w : Wiring α) (m : Msg) : List (Delivery α) :=
  (mmRange m.key w.handlers).map .handler

/-- `reactor::send_message` (src/reactor/reactor.cpp:37-47). -/
def Wiring.send {α : Type} (w : Wiring α) (m : Msg) : List (Delivery α) :=
  if w.sockets.any (fun e => e.1 == m.key) then [.socket m.key] else w.process m

/-- The order in which the loop looks at the sockets: iteration order of `sockets_`
    (src/reactor/reactor.cpp:64-68, 85-120).  The internal socket comes last; the status notifier
    handler never answers, so nothing is ever received from it. -/
def Wiring.order {α : Type} (w : Wiring α) : List String := w.sockets.map (·.1)

/-! ## The process -/

/-- Where the main thread is in the loop (src/reactor/reactor.cpp:77-127). -/
inductive Pc where
  /-- about to call, or in, `zmq::poll` -/
  | poll
  /-- in the loop over the poll items: the sockets found readable and not served yet, and
      `elapsed_time`; with no sockets left the timer message is next -/
  | serve (ready : List String) (elapsed : Int)
  /-- ended by an exception or undefined behaviour -/
  | halt (e : Err)

/-- The notifier thread (src/reactor/reactor.cpp:180-212). -/
inductive Thread where
  /-- before `connect` has taken effect on the reactor's socket -/
  | starting
  /-- in the loop -/
  | running
  /-- returned after `TERMINATE` -/
  | stopped
  /-- undefined behaviour in the handler -/
  | crashed (u : UB)
  deriving DecidableEq, Repr

/-- What the process gets from outside besides events. -/
structure SysEnv where
  /-- `asynchronous_handler_wrapper::unique_id_` (src/reactor/reactor.cpp:154) -/
  uid : String
  /-- number of messages the in-process pipe is guaranteed to hold (ZeroMQ's high-water marks are
      not set by the broker, so the library's defaults apply) -/
  room : Nat
  /-- whether the pipe is full for the `n`-th message, if it holds `room` messages or more -/
  full : Nat → Bool
  ncfg : NotifierConfig

/-- State of the process.  The fields from `handled` on are history variables. -/
structure Sys (Q : Type) where
  /-- broker handler with registry and queue manager -/
  h : HState Q
  /-- send sides of the registered sockets, by key -/
  socks : String → Router
  /-- complete messages received by the registered sockets and not read yet: identity and frames -/
  inbox : String → List (String × List String)
  pc : Pc
  /-- messages the handler has passed to `send_message` that are not sent yet -/
  todo : List Msg
  /-- send side of `async_handler_socket_` -/
  inproc : Router
  /-- complete messages on their way to the notifier thread -/
  pipe : List (List String)
  thread : Thread
  /-- the messages the loop passed to `process_message`, in order -/
  handled : List Msg
  /-- the messages the broker handler was called with by the loop, in order -/
  calls : List Msg
  /-- the messages the broker handler passed to `send_message`, in order -/
  emitted : List Msg
  /-- those of them that `send_message` is done with -/
  routed : List Msg
  /-- the messages passed to `asynchronous_handler_wrapper::operator()`, in order -/
  posted : List Msg
  /-- the messages that were lost on the way to the notifier thread -/
  lost : List Msg
  /-- the messages the status notifier handler was called with, and what it did, in order -/
  notified : List (Msg × List NAct)
  /-- the messages that arrived: socket, identity, frames -/
  arrived : List (String × String × List String)
  /-- clock readings before and after each poll, in nanoseconds -/
  polls : List (Int × Int)
  /-- the broker handler was called while it was handling a message -/
  reentered : Bool

/-- Events. -/
inductive SysEv where
  /-- a message arrives at a registered socket -/
  | arrive (key identity : String) (data : List String)
  /-- `zmq::poll` returns; the clock readings around it in nanoseconds -/
  | poll (before after : Int)
  /-- the main thread makes its next step -/
  | main
  /-- the notifier thread's `connect` takes effect -/
  | connect
  /-- the notifier thread takes the next message and handles it; the outcomes of its attempts -/
  | take (outcome : Nat → Bool)

section
variable {Q : Type}

/-- State after the constructors (src/reactor/reactor.cpp:7-12, src/broker_connect.cpp:13-42). -/
def Sys.init (Q : Type) [QueueManager Q] : Sys Q where
  h := HState.init Q
  socks := fun _ => Router.fresh
  inbox := fun _ => []
  pc := .poll
  todo := []
  inproc := Router.fresh
  pipe := []
  thread := .starting
  handled := []
  calls := []
  emitted := []
  routed := []
  posted := []
  lost := []
  notified := []
  arrived := []
  polls := []
  reentered := false

/-- Whether ZeroMQ drops a message sent to the notifier thread: the `ROUTER` socket drops messages
    for peers that are not connected yet and for peers whose pipe is full. -/
def Sys.drops (e : SysEnv) (s : Sys Q) : Bool :=
  s.thread == .starting || (decide (e.room ≤ s.pipe.length) && e.full s.posted.length)

/-- `asynchronous_handler_wrapper::operator()` (src/reactor/reactor.cpp:169-178) followed by what
    ZeroMQ does with the message, if one is completed. -/
def Sys.post (e : SysEnv) (m : Msg) (s : Sys Q) : Sys Q :=
  let r := s.inproc.sendAll (asyncFrames e.uid m)
  let done := ((r.sent.drop s.inproc.sent.length).filter (fun x => x.1 == e.uid)).map (·.2)
  if s.drops e then
    { s with inproc := r, posted := s.posted ++ [m], lost := s.lost ++ [m] }
  else
    { s with inproc := r, posted := s.posted ++ [m], pipe := s.pipe ++ done }

variable [QueueManager Q]

/-- `(*it->second)(message)` (src/reactor/reactor.cpp:54, 142-145, 169-178).  The messages the broker
    handler passes to the response callback are sent immediately in the code; here they are queued
    in `todo` and sent by the following steps of the main thread.  Sending touches no handler state
    (`nested` calls of the handler, which would, are recorded in `reentered`), so the difference
    cannot be observed (C91 proves this).  Messages passed on before an exception are sent as well. -/
def Sys.call (cfg : HConfig) (env : Env) (e : SysEnv) (nested : Bool) (m : Msg) (s : Sys Q) :
    HandlerRef → Sys Q
  | .notifier => s.post e m
  | .broker =>
    if nested then { s with reentered := true }
    else match step cfg env m s.h with
      | .ok () h' =>
        { s with h := h', todo := s.todo ++ h'.outs, calls := s.calls ++ [m],
                 emitted := s.emitted ++ h'.outs }
      | .error err h' =>
        { s with pc := .halt err, todo := s.todo ++ h'.outs, emitted := s.emitted ++ h'.outs }

/-- What is done for one delivery. -/
def Sys.deliver (cfg : HConfig) (env : Env) (e : SysEnv) (nested : Bool) (m : Msg) (s : Sys Q) :
    Delivery HandlerRef → Sys Q
  | .socket k => { s with socks := fun x => if x = k then (s.socks k).sendMessage m else s.socks x }
  | .handler r => s.call cfg env e nested m r

/-- `reactor::process_message` called by the loop (src/reactor/reactor.cpp:95, 126). -/
def Sys.process (cfg : HConfig) (env : Env) (e : SysEnv) (m : Msg) (s : Sys Q) : Sys Q :=
  (brokerWiring.process m).foldl (Sys.deliver cfg env e false m) { s with handled := s.handled ++ [m] }

/-- `reactor::send_message` called by a handler (src/reactor/reactor.cpp:144). -/
def Sys.send (cfg : HConfig) (env : Env) (e : SysEnv) (m : Msg) (s : Sys Q) : Sys Q :=
  (brokerWiring.send m).foldl (Sys.deliver cfg env e true m) { s with routed := s.routed ++ [m] }

/-- The timer message (src/reactor/reactor.cpp:122-126). -/
def timerMsg (elapsed : Int) : Msg := ⟨keyTimer, "", [intStr elapsed]⟩

/-- The next step of the main thread; `none` when there is none (it is in `zmq::poll`, or ended). -/
def Sys.main (cfg : HConfig) (env : Env) (e : SysEnv) (s : Sys Q) : Option (Sys Q) :=
  match s.todo with
  | m :: t => some (Sys.send cfg env e m { s with todo := t })
  | [] =>
    match s.pc with
    | .poll => none
    | .halt _ => none
    | .serve (k :: ks) el =>
      match s.inbox k with
      | [] => none
      | (i, d) :: rest =>
        (receiveMessage k (recvFrames (i :: d))).map fun r =>
          Sys.process cfg env e r.1
            { s with pc := .serve ks el, inbox := fun x => if x = k then rest else s.inbox x }
    | .serve [] el => some (Sys.process cfg env e (timerMsg el) { s with pc := .poll })

/-- `duration_cast<milliseconds>` of the difference of the clock readings
    (src/reactor/reactor.cpp:82); `system_clock` counts nanoseconds. -/
def elapsedMs (before after : Int) : Int := (after - before).tdiv 1000000

/-- `zmq::poll` returns (src/reactor/reactor.cpp:78-82): the sockets with messages are readable. -/
def Sys.pollReturns (before after : Int) (s : Sys Q) : Option (Sys Q) :=
  match s.todo, s.pc with
  | [], .poll =>
    some { s with
      pc := .serve (brokerWiring.order.filter (fun k => !(s.inbox k).isEmpty))
        (elapsedMs before after)
      polls := s.polls ++ [(before, after)] }
  | _, _ => none

/-- One turn of the loop in `handler_thread` (src/reactor/reactor.cpp:186-210) with a message in the
    pipe. -/
def Sys.take (e : SysEnv) (outcome : Nat → Bool) (s : Sys Q) : Option (Sys Q) :=
  match s.thread, s.pipe with
  | .running, fs :: rest =>
    match threadTurn (recvFrames fs) with
    | none => none
    | some (.stop, _) => some { s with pipe := rest, thread := .stopped }
    | some (.skip, _) => some { s with pipe := rest }
    | some (.request m, _) =>
      match notifierOnRequest e.ncfg outcome m with
      | .ok acts => some { s with pipe := rest, notified := s.notified ++ [(m, acts)] }
      | .error u => some { s with pipe := rest, thread := .crashed u }
  | _, _ => none

/-- Transitions of the process; `none`: the event cannot happen. -/
def Sys.next (cfg : HConfig) (env : Env) (e : SysEnv) (ev : SysEv) (s : Sys Q) : Option (Sys Q) :=
  match ev with
  | .arrive k i d =>
    -- a ZeroMQ message has at least one frame besides the identity frame a ROUTER socket adds
    if k ∈ brokerWiring.order ∧ d ≠ [] then
      some { s with inbox := fun x => if x = k then s.inbox k ++ [(i, d)] else s.inbox x
                    arrived := s.arrived ++ [(k, i, d)] }
    else none
  | .poll b a => s.pollReturns b a
  | .main => s.main cfg env e
  | .connect => if s.thread = .starting then some { s with thread := .running } else none
  | .take outcome => s.take e outcome

/-- Executions of the process. -/
inductive SRun (cfg : HConfig) (env : Env) (e : SysEnv) : List SysEv → Sys Q → Prop
  | nil : SRun cfg env e [] (Sys.init Q)
  | snoc {evs : List SysEv} {s s' : Sys Q} {ev : SysEv} (hr : SRun cfg env e evs s)
      (hs : s.next cfg env e ev = some s') : SRun cfg env e (evs ++ [ev]) s'

end

end Broker
