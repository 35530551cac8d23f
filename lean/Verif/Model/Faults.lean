import Verif.Model.Process

/-!
# ZeroMQ calls that fail

`recv`, `send` and `zmq::poll` of the C++ binding throw `zmq::error_t` when the library reports an
error, for instance because a signal arrived while it was waiting.
`router_socket_wrapper::receive_message` and `send_message` turn the exception into the result
`false` (src/reactor/router_socket_wrapper.cpp:9-54), which the reactor does not look at
(src/reactor/reactor.cpp:43, 92).  Nothing catches what `zmq::poll` and the `recv` calls of the
notifier thread throw (src/reactor/reactor.cpp:79, 190-206).

A `recv` that fails takes no frame, a `send` that fails sends none.  Failures of the `send` calls on
the in-process socket (src/reactor/reactor.cpp:162-177) are in `Model/AllFaults.lean`.
-/

namespace Broker

/-! ## Sockets -/

/-- `recvMore` when the call of `recv` number `n` (counted from 0) throws: the function returns with
    what was read so far (src/reactor/router_socket_wrapper.cpp:43-48). -/
def recvMoreFails : Nat → Bool → List (String × Bool) → List String × List (String × Bool)
  | n + 1, true, (f, m) :: t => let (fs, rest) := recvMoreFails n m t; (f :: fs, rest)
  | _, _, l => ([], l)

/-- `router_socket_wrapper::receive_message` (src/reactor/router_socket_wrapper.cpp:30-54) on a fresh
    `message_container` with the key set (src/reactor/reactor.cpp:87-92) when the call of `recv`
    number `n` throws: what is in the container afterwards, and the frames still in the socket. -/
def receiveFails (key : String) : Nat → List (String × Bool) → Msg × List (String × Bool)
  | n + 1, (identity, more) :: t =>
    let (data, rest) := recvMoreFails n more t
    (⟨key, identity, data⟩, rest)
  | _, l => (⟨key, "", []⟩, l)

/-- `router_socket_wrapper::send_message` (src/reactor/router_socket_wrapper.cpp:9-28) when the call
    of `send` number `n` throws: the frames before it are sent, the function returns. -/
def Router.sendFails (r : Router) (n : Nat) (m : Msg) : Router :=
  r.sendAll ((wrapperFrames m.identity m.data).take n)

/-! ## The loop -/

/-- Events of the process with sockets that may fail. -/
inductive FEv where
  /-- as in `SysEv` -/
  | ok (ev : SysEv)
  /-- the main thread reads a message from a socket; its `recv` number `n` throws -/
  | recvFails (n : Nat)
  /-- the main thread sends a message on a registered socket; its `send` number `n` throws -/
  | sendFails (n : Nat)

section
variable {Q : Type} [QueueManager Q]

/-- The next step of the main thread when it reads a message and `recv` number `n` throws
    (src/reactor/reactor.cpp:89-95): the result of `receive_message` is ignored.  The frames left in
    the socket are what the next call of `receive_message` on this socket starts with. -/
def Sys.recvFails (cfg : HConfig) (env : Env) (e : SysEnv) (n : Nat) (s : Sys Q) : Option (Sys Q) :=
  match s.todo, s.pc with
  | [], .serve (k :: ks) el =>
    match s.inbox k with
    | [] => none
    | (i, d) :: rest =>
      if n ≤ d.length then
        let (m, left) := receiveFails k n (recvFrames (i :: d))
        let rest' := match left.map (·.1) with
          | [] => rest
          | f :: t => (f, t) :: rest
        some (Sys.process cfg env e m
          { s with pc := .serve ks el, inbox := fun x => if x = k then rest' else s.inbox x })
      else none
  | _, _ => none

/-- The next step of the main thread when it sends a message on a registered socket and `send` number
    `n` throws (src/reactor/reactor.cpp:42-43): the result of `send_message` is ignored. -/
def Sys.sendFails (n : Nat) (s : Sys Q) : Option (Sys Q) :=
  match s.todo with
  | [] => none
  | m :: t =>
    if m.key ∈ brokerWiring.order ∧ n ≤ m.data.length then
      some { s with todo := t, routed := s.routed ++ [m]
                    socks := fun x => if x = m.key then (s.socks m.key).sendFails n m else s.socks x }
    else none

/-- Transitions of the process with sockets that may fail; `none`: the event cannot happen. -/
def Sys.fnext (cfg : HConfig) (env : Env) (e : SysEnv) (ev : FEv) (s : Sys Q) : Option (Sys Q) :=
  match ev with
  | .ok ev => s.next cfg env e ev
  | .recvFails n => s.recvFails cfg env e n
  | .sendFails n => s.sendFails n

/-- Executions of the process with sockets that may fail. -/
inductive FRun (cfg : HConfig) (env : Env) (e : SysEnv) : List FEv → Sys Q → Prop
  | nil : FRun cfg env e [] (Sys.init Q)
  | snoc {evs : List FEv} {s s' : Sys Q} {ev : FEv} (hr : FRun cfg env e evs s)
      (hs : s.fnext cfg env e ev = some s') : FRun cfg env e (evs ++ [ev]) s'

/-! ## Waiting -/

/-- How a wait of the process comes to an end that `main` does not see. -/
inductive Fate where
  /-- none so far -/
  | alive
  /-- `std::terminate`, which ends the process by `abort` -/
  | aborted
  deriving DecidableEq, Repr

/-- Events of the process when waiting may fail. -/
inductive WEv where
  /-- as in `PEv` -/
  | ok (ev : PEv)
  /-- `zmq::poll` throws -/
  | pollFails
  /-- the `recv` in which the notifier thread waits throws -/
  | waitFails

/-- Transitions of the process when waiting may fail.

    * `zmq::poll` is called after the condition of the loop was found to hold
      (src/reactor/reactor.cpp:77-79); what it throws leaves `start_loop`.
    * The notifier thread waits at the beginning of its loop (src/reactor/reactor.cpp:190); what
      `recv` throws leaves the function the thread runs (src/reactor/reactor.cpp:156), and
      `std::thread` calls `std::terminate`. -/
def Proc.wnext (cfg : HConfig) (env : Env) (e : SysEnv) (ev : WEv) (x : Proc Q × Fate) :
    Option (Proc Q × Fate) :=
  match x.2, ev with
  | .aborted, _ => none
  | .alive, .ok ev => (x.1.next cfg env e ev).map fun p => (p, .alive)
  | .alive, .pollFails =>
    match x.1.phase with
    | .looping true => some (x.1.destroyReactor e, .alive)
    | _ => none
  | .alive, .waitFails =>
    match x.1.phase, x.1.sys.thread, x.1.sys.pipe with
    | .done _, _, _ => none
    | .undefined, _, _ => none
    | _, .running, [] => some (x.1, .aborted)
    | _, _, _ => none

/-- Executions of the process when waiting may fail. -/
inductive WRun (cfg : HConfig) (env : Env) (e : SysEnv) : List WEv → Proc Q × Fate → Prop
  | nil : WRun cfg env e [] (Proc.init Q, .alive)
  | snoc {evs : List WEv} {x x' : Proc Q × Fate} {ev : WEv} (hr : WRun cfg env e evs x)
      (hs : Proc.wnext cfg env e ev x = some x') : WRun cfg env e (evs ++ [ev]) x'

end

end Broker
