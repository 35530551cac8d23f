import Verif.Model.Faults

/-!
# The process when any call of ZeroMQ may fail

`Model/Faults.lean` has the failures of `recv` and `send` on the registered sockets (`FEv`) and those
of waiting (`WEv`), each on its own.  Here they are put together, with those of the calls on the
in-process socket (src/reactor/reactor.cpp:162-177) and in the notifier thread
(src/reactor/reactor.cpp:182-206).  Failures while the sockets are bound and the handlers are
registered are in `Proc.next` (`enter false`) and in `Model/Core.lean`.

Nothing between `asynchronous_handler_wrapper::operator()` and `main` catches an exception
(src/handlers/broker_handler.cpp, src/reactor/reactor.cpp:49-145, src/broker_connect.cpp:44-48,
src/broker_core.cpp:26-31), and nothing in `handler_thread` does.
-/

namespace Broker

/-- Events of the process when any call of ZeroMQ may fail. -/
inductive AEv where
  /-- as in `PEv` -/
  | ok (ev : PEv)
  /-- the main thread reads a message from a registered socket; its `recv` number `n` throws -/
  | recvFails (n : Nat)
  /-- the main thread sends a message on a registered socket; its `send` number `n` throws -/
  | sendFails (n : Nat)
  /-- `zmq::poll` throws -/
  | pollFails
  /-- the main thread passes a message to the notifier thread; its `send` number `n` throws -/
  | postFails (n : Nat)
  /-- `handlers_` is cleared; a `send` of the destructor of the wrapper throws -/
  | stopFails
  /-- the notifier thread sets up its socket; one of the calls throws -/
  | connectFails
  /-- a `recv` of the notifier thread throws -/
  | threadFails

section
variable {Q : Type} [QueueManager Q]

/-- `asynchronous_handler_wrapper::operator()` when `send` number `n` throws
    (src/reactor/reactor.cpp:169-178): the frames before it are sent, which completes no message; the
    exception leaves the handler that passed the message on, so the messages it would have passed on
    after this one are not sent. -/
def Sys.postFails (e : SysEnv) (n : Nat) (s : Sys Q) : Option (Sys Q) :=
  match s.todo with
  | [] => none
  | m :: _ =>
    if m.key = keyNotifier ∧ n < (asyncFrames e.uid m).length then
      some { s with todo := [], inproc := s.inproc.sendAll ((asyncFrames e.uid m).take n) }
    else none

/-- Transitions of the process when any call of ZeroMQ may fail.

    * `recvFails`, `sendFails`: `Model/Faults.lean`.
    * `pollFails`, `postFails`: the exception leaves `start_loop`.
    * `stopFails`: destructors are `noexcept`, what leaves one calls `std::terminate`
      (src/reactor/reactor.cpp:129, 159-166).
    * `connectFails`, `threadFails`: what leaves the function a thread runs calls `std::terminate`
      (src/reactor/reactor.cpp:156, 182-206). -/
def Proc.anext (cfg : HConfig) (env : Env) (e : SysEnv) (ev : AEv) (x : Proc Q × Fate) :
    Option (Proc Q × Fate) :=
  match x.2, ev with
  | .aborted, _ => none
  | .alive, .ok ev => (x.1.next cfg env e ev).map fun p => (p, .alive)
  | .alive, .recvFails n =>
    match x.1.phase with
    | .looping _ => (x.1.sys.recvFails cfg env e n).map fun s => ({ x.1 with sys := s }, .alive)
    | _ => none
  | .alive, .sendFails n =>
    match x.1.phase with
    | .looping _ => (x.1.sys.sendFails n).map fun s => ({ x.1 with sys := s }, .alive)
    | _ => none
  | .alive, .pollFails =>
    match x.1.phase with
    | .looping true => some (x.1.destroyReactor e, .alive)
    | _ => none
  | .alive, .postFails n =>
    match x.1.phase with
    | .looping _ =>
      (x.1.sys.postFails e n).map fun s => (Proc.destroyReactor e { x.1 with sys := s }, .alive)
    | _ => none
  | .alive, .stopFails =>
    match x.1.phase, x.1.sys.pc, x.1.sys.todo with
    | .looping false, .poll, [] => if x.1.flag then some (x.1, .aborted) else none
    | _, _, _ => none
  | .alive, .connectFails =>
    match x.1.phase, x.1.sys.thread with
    | .done _, _ => none
    | .undefined, _ => none
    | _, .starting => some (x.1, .aborted)
    | _, _ => none
  | .alive, .threadFails =>
    match x.1.phase, x.1.sys.thread with
    | .done _, _ => none
    | .undefined, _ => none
    | _, .running => some (x.1, .aborted)
    | _, _ => none

/-- Executions of the process when any call of ZeroMQ may fail. -/
inductive ARun (cfg : HConfig) (env : Env) (e : SysEnv) : List AEv → Proc Q × Fate → Prop
  | nil : ARun cfg env e [] (Proc.init Q, .alive)
  | snoc {evs : List AEv} {x x' : Proc Q × Fate} {ev : AEv} (hr : ARun cfg env e evs x)
      (hs : Proc.anext cfg env e ev x = some x') : ARun cfg env e (evs ++ [ev]) x'

end

end Broker
