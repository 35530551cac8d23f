import Verif.Model.Reactor
import Mathlib.Logic.Function.Basic

/-!
# The reactor with any handlers

src/reactor/reactor.cpp as a component: any sockets, any handlers, called directly (`add_handler`) or
in their own threads (`add_async_handler`).  `Model/Reactor.lean` is about the broker's own handlers;
there the main thread handles a message in one step and sends the answers afterwards.  Here the calls
are nested as in the code: the response callback is called while the handler runs, it may call other
handlers or the same one again, and the handler goes on when it returns.  The threads of asynchronous
handlers send responses, which the loop reads.

What the socket wrappers do with a message (src/reactor/router_socket_wrapper.cpp) is in
`Model/Zmq.lean`; here a message passed to `send_message` of a wrapper is recorded in `sent`.
The start and the end of the loop are in `Model/Process.lean`.
-/

namespace Broker.Reactor

/-- What a call of `handler_interface::on_request` (src/reactor/handler_interface.h:10-28) does: it
    may call the response callback, with the state of its object stored before the call and read
    after it (the object may be entered again meanwhile); it ends normally or by an exception.  A
    handler that does not end without help is not covered. -/
inductive Prog (σ : Type) where
  | done (v : σ)
  | throw (v : σ)
  | respond (v : σ) (m : Msg) (next : σ → Prog σ)

/-- A handler object.  `x` stands for what the handler learns from outside during the call. -/
structure Obj where
  σ : Type
  init : σ
  onRequest : (x : Nat → Bool) → Msg → σ → Prog σ

/-- A reactor: the registrations and the handlers; `α` stands for the `handler_wrapper` objects. -/
structure Setup (α : Type) where
  wiring : Wiring α
  /-- the wrapper is an `asynchronous_handler_wrapper` -/
  isAsync : α → Bool
  obj : α → Obj
  /-- `asynchronous_handler_wrapper::unique_id_` (src/reactor/reactor.cpp:154) -/
  uid : α → String
  /-- the pipe to the handler's thread is full: number of messages passed to the wrapper before, and
      number of messages in the pipe -/
  full : α → Nat → Nat → Bool

variable {α : Type}

/-- The call stack of the main thread. -/
inductive Frame (S : Setup α) where
  /-- in the loop of `process_message` (src/reactor/reactor.cpp:53-55): the wrappers still to call -/
  | loop (m : Msg) (todo : List α)
  /-- in `on_request` -/
  | body (a : α) (p : Prog (S.obj a).σ)
  /-- in `on_request`, waiting for the response callback to return -/
  | wait (a : α) (k : (S.obj a).σ → Prog (S.obj a).σ)

/-- Where the main thread is when its call stack is empty (src/reactor/reactor.cpp:77-127). -/
inductive Place where
  | poll
  /-- the poll items found readable and not served yet (`none`: the internal socket), and
      `elapsed_time` -/
  | serve (ready : List (Option String)) (elapsed : Int)
  /-- ended by an exception -/
  | halt
  deriving DecidableEq

/-- Send side of the `DEALER` socket of a thread: the frames of the message being sent, and the
    complete messages the reactor has not received yet. -/
structure Dealer where
  cur : List String
  out : List (List String)

/-- `socket_t::send` on a `DEALER` socket. -/
def Dealer.send (d : Dealer) (f : String × Bool) : Dealer :=
  if f.2 then { d with cur := d.cur ++ [f.1] } else ⟨[], d.out ++ [d.cur ++ [f.1]]⟩

/-- The state of the thread of an asynchronous handler. -/
inductive Status where
  | starting
  | running
  | stopped
  | crashed
  deriving DecidableEq

/-- A thread (src/reactor/reactor.cpp:180-212). -/
structure Thr (σ : Type) where
  status : Status
  /-- messages on their way to the thread -/
  pipe : List (List String)
  /-- the rest of the call of `on_request`, if the thread is in one -/
  cur : Option (Prog σ)
  dealer : Dealer

/-- State of the reactor and its threads.  The fields from `asked` on are history variables. -/
structure St (S : Setup α) where
  obj : ∀ a, (S.obj a).σ
  stack : List (Frame S)
  place : Place
  inbox : String → List (String × List String)
  /-- send side of `async_handler_socket_` -/
  inproc : Router
  thr : ∀ a, Thr (S.obj a).σ
  /-- messages passed to `reactor::send_message`, in order -/
  asked : List Msg
  /-- messages passed to `reactor::process_message`, in order -/
  processed : List Msg
  /-- messages passed to `send_message` of the socket wrapper with the key of the message -/
  sent : List Msg
  /-- calls of `on_request` by the main thread -/
  calls : List (α × Msg)
  /-- messages passed to an asynchronous wrapper, and whether ZeroMQ took them -/
  posted : α → List (Msg × Bool)
  /-- calls of `on_request` by the threads -/
  taken : α → List Msg
  /-- messages passed to the response callback in the threads -/
  replied : α → List Msg
  /-- messages of the threads read by the loop -/
  returned : α → List Msg
  /-- a handler was called by the main thread while it was handling a message -/
  reentered : Bool

/-- Events. -/
inductive Ev (α : Type) where
  /-- a message arrives at a registered socket -/
  | arrive (key identity : String) (data : List String)
  /-- `zmq::poll` returns -/
  | poll (before after : Int)
  /-- the main thread makes its next step; if it calls a handler, what that learns from outside; if
      it reads from the internal socket, the thread whose message comes next -/
  | main (x : Nat → Bool) (pick : Option α)
  /-- the `connect` of a thread takes effect -/
  | connect (a : α)
  /-- a thread takes the next message and calls its handler -/
  | take (a : α) (x : Nat → Bool)
  /-- a thread goes on with the call -/
  | thread (a : α)

/-- State after the constructors and the registrations. -/
def St.init (S : Setup α) : St S where
  obj a := (S.obj a).init
  stack := []
  place := .poll
  inbox _ := []
  inproc := .fresh
  thr _ := ⟨.starting, [], none, ⟨[], []⟩⟩
  asked := []
  processed := []
  sent := []
  calls := []
  posted _ := []
  taken _ := []
  replied _ := []
  returned _ := []
  reentered := false

variable {S : Setup α}

/-- The handlers the main thread is in. -/
def Frame.owner : Frame S → Option α
  | .loop _ _ => none
  | .body a _ => some a
  | .wait a _ => some a

/-- `reactor::process_message` is called (src/reactor/reactor.cpp:49-56). -/
def St.process (m : Msg) (s : St S) : St S :=
  { s with stack := .loop m (mmRange m.key S.wiring.handlers) :: s.stack
           processed := s.processed ++ [m] }

/-- `reactor::send_message` is called (src/reactor/reactor.cpp:37-47). -/
def St.send (m : Msg) (s : St S) : St S :=
  if S.wiring.sockets.any (fun e => e.1 == m.key) then
    { s with asked := s.asked ++ [m], sent := s.sent ++ [m] }
  else St.process m { s with asked := s.asked ++ [m] }

/-- Whether ZeroMQ drops a message for a thread: it is not connected yet, or its pipe is full. -/
def St.drops (s : St S) (a : α) : Bool :=
  (s.thr a).status == .starting || S.full a (s.posted a).length (s.thr a).pipe.length

variable [DecidableEq α]

/-- Complete messages on the internal socket get to the threads they are for. -/
def St.arriveAt (l : List (String × List String)) (s : St S) : ∀ a, Thr (S.obj a).σ := fun a =>
  if s.drops a then s.thr a
  else { s.thr a with pipe := (s.thr a).pipe ++ (l.filter (fun x => x.1 == S.uid a)).map (·.2) }

/-- `asynchronous_handler_wrapper::operator()` (src/reactor/reactor.cpp:169-178). -/
def St.post (a : α) (m : Msg) (s : St S) : St S :=
  let r := s.inproc.sendAll (asyncFrames (S.uid a) m)
  { s with inproc := r
           thr := s.arriveAt (r.sent.drop s.inproc.sent.length)
           posted := Function.update s.posted a (s.posted a ++ [(m, !s.drops a)]) }

/-- The next step of the main thread in a call (src/reactor/reactor.cpp:37-56, 142-145). -/
def St.inCall (x : Nat → Bool) (s : St S) : Option (St S) :=
  match s.stack with
  | [] => none
  | .loop _ [] :: st => some { s with stack := st }
  | .loop m (a :: as) :: st =>
    if S.isAsync a then some (St.post a m { s with stack := .loop m as :: st })
    else some { s with
      stack := .body a ((S.obj a).onRequest x m (s.obj a)) :: .loop m as :: st
      calls := s.calls ++ [(a, m)]
      reentered := s.reentered || decide (a ∈ st.filterMap Frame.owner) }
  | .body a (.done v) :: st => some { s with obj := Function.update s.obj a v, stack := st }
  | .body a (.throw v) :: _ =>
    some { s with obj := Function.update s.obj a v, stack := [], place := .halt }
  | .body a (.respond v m k) :: st =>
    some (St.send m { s with obj := Function.update s.obj a v, stack := .wait a k :: st })
  | .wait a k :: st => some { s with stack := .body a (k (s.obj a)) :: st }

/-- The next step of the main thread in the loop (src/reactor/reactor.cpp:84-127).  `none`: it is in
    `zmq::poll`, ended, or blocked in `recv`. -/
def St.inLoop (pick : Option α) (s : St S) : Option (St S) :=
  match s.place with
  | .poll => none
  | .halt => none
  | .serve (some k :: ks) el =>
    match s.inbox k with
    | [] => none
    | (i, d) :: rest =>
      some (St.process ⟨k, i, d⟩
        { s with place := .serve ks el, inbox := Function.update s.inbox k rest })
  | .serve (none :: ks) el =>
    match pick with
    | none => none
    | some a =>
      match (s.thr a).dealer.out with
      | [] => none
      | fs :: rest =>
        (recvAsync (recvFrames (S.uid a :: fs))).map fun r =>
          St.send r.1 { s with
            place := .serve ks el
            thr := Function.update s.thr a
              { s.thr a with dealer := { (s.thr a).dealer with out := rest } }
            returned := Function.update s.returned a (s.returned a ++ [r.1]) }
  | .serve [] el => some (St.process (timerMsg el) { s with place := .poll })

/-- Some thread has a complete message for the reactor.  (Wrappers without a registration get no
    messages, so they send none.) -/
def St.readable (s : St S) : Bool := S.wiring.handlers.any (fun e => !(s.thr e.2).dealer.out.isEmpty)

/-- `zmq::poll` returns (src/reactor/reactor.cpp:78-82). -/
def St.pollReturns (before after : Int) (s : St S) : Option (St S) :=
  match s.stack, s.place with
  | [], .poll =>
    let ready := (S.wiring.order.filter (fun k => !(s.inbox k).isEmpty)).map some ++
      (if s.readable then [none] else [])
    some { s with place := .serve ready (elapsedMs before after) }
  | _, _ => none

/-- One turn of the loop in `handler_thread` up to the call of the handler
    (src/reactor/reactor.cpp:186-210). -/
def St.take (a : α) (x : Nat → Bool) (s : St S) : Option (St S) :=
  match (s.thr a).status, (s.thr a).cur, (s.thr a).pipe with
  | .running, none, fs :: rest =>
    match threadTurn (recvFrames fs) with
    | none => none
    | some (.stop, _) =>
      some { s with thr := Function.update s.thr a { s.thr a with pipe := rest, status := .stopped } }
    | some (.skip, _) => some { s with thr := Function.update s.thr a { s.thr a with pipe := rest } }
    | some (.request m, _) =>
      some { s with
        thr := Function.update s.thr a
          { s.thr a with pipe := rest, cur := some ((S.obj a).onRequest x m (s.obj a)) }
        taken := Function.update s.taken a (s.taken a ++ [m]) }
  | _, _, _ => none

/-- A thread goes on with the call of its handler; the response callback is `send_response`
    (src/reactor/reactor.cpp:209-222).  That a thread has to wait when its pipe to the reactor is full
    is a matter of scheduling. -/
def St.thread (a : α) (s : St S) : Option (St S) :=
  match (s.thr a).cur with
  | none => none
  | some (.done v) =>
    some { s with obj := Function.update s.obj a v
                  thr := Function.update s.thr a { s.thr a with cur := none } }
  | some (.throw v) =>
    some { s with obj := Function.update s.obj a v
                  thr := Function.update s.thr a { s.thr a with cur := none, status := .crashed } }
  | some (.respond v m k) =>
    some { s with
      obj := Function.update s.obj a v
      thr := Function.update s.thr a
        { s.thr a with cur := some (k v)
                       dealer := (responseFrames m).foldl Dealer.send (s.thr a).dealer }
      replied := Function.update s.replied a (s.replied a ++ [m]) }

/-- Transitions; `none`: the event cannot happen. -/
def St.next (ev : Ev α) (s : St S) : Option (St S) :=
  match ev with
  | .arrive k i d =>
    if k ∈ S.wiring.order ∧ d ≠ [] then
      some { s with inbox := Function.update s.inbox k (s.inbox k ++ [(i, d)]) }
    else none
  | .poll b a => s.pollReturns b a
  | .main x pick => match s.stack with
    | [] => s.inLoop pick
    | _ :: _ => s.inCall x
  | .connect a => if S.isAsync a ∧ (s.thr a).status = .starting then
      some { s with thr := Function.update s.thr a { s.thr a with status := .running } }
    else none
  | .take a x => s.take a x
  | .thread a => s.thread a

/-- Executions of the reactor. -/
inductive Exec (S : Setup α) : List (Ev α) → St S → Prop
  | nil : Exec S [] (St.init S)
  | snoc {evs : List (Ev α)} {s s' : St S} {ev : Ev α} (hr : Exec S evs s)
      (hs : s.next ev = some s') : Exec S (evs ++ [ev]) s'

end Broker.Reactor
