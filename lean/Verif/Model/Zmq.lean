import Verif.Model.Handler

/-!
# ZeroMQ sockets: ROUTER framing and the wrappers around it

ZeroMQ itself is not part of the repository.  What is assumed about it is exactly what this file
says: the framing behaviour of the send side of a ROUTER socket (`Router`), and that complete
multipart messages are passed on whole, with their frames in order.
-/

namespace Broker

/-! ## Sending on a ROUTER socket -/

/-- Send side of a `ROUTER` socket.  The first frame of a multipart message selects the peer and is
    removed; the frames up to and including the first one without `ZMQ_SNDMORE` form the message.
    Between messages `cur` is `none`.  `sent` is a history variable: the complete messages handed
    to ZeroMQ, each with the peer it is for.  ZeroMQ drops a message whose peer is not connected
    (or is too slow); that happens after this point, see `Sys.post` for the in-process socket. -/
structure Router where
  /-- peer and frames of the multipart message being sent -/
  cur : Option (String × List String)
  sent : List (String × List String)
  deriving DecidableEq, Repr

/-- A socket nothing has been sent to. -/
def Router.fresh : Router := ⟨none, []⟩

/-- `socket_t::send(data, size, more ? ZMQ_SNDMORE : 0)` on a `ROUTER` socket.  A peer frame that
    is not followed by anything is ignored by ZeroMQ. -/
def Router.send (r : Router) (frame : String) (more : Bool) : Router :=
  match r.cur with
  | none => if more then ⟨some (frame, []), r.sent⟩ else r
  | some (p, fs) =>
    if more then ⟨some (p, fs ++ [frame]), r.sent⟩ else ⟨none, r.sent ++ [(p, fs ++ [frame])]⟩

/-- A sequence of `send` calls. -/
def Router.sendAll (r : Router) (l : List (String × Bool)) : Router :=
  l.foldl (fun r f => r.send f.1 f.2) r

/-- The loop over the data frames at src/reactor/router_socket_wrapper.cpp:19-25,
    src/reactor/reactor.cpp:175-177 and 219-221: `ZMQ_SNDMORE` on all frames but the last.  With no
    frames nothing is sent. -/
def dataFrames : List String → List (String × Bool)
  | [] => []
  | [f] => [(f, false)]
  | f :: t => (f, true) :: dataFrames t

/-- The `send` calls of `router_socket_wrapper::send_message`
    (src/reactor/router_socket_wrapper.cpp:9-28).  Failures of `send` (a closed context) are not
    modelled; a `ROUTER` socket neither blocks nor fails for unreachable peers. -/
def wrapperFrames (identity : String) (data : List String) : List (String × Bool) :=
  (identity, true) :: dataFrames data

/-- `router_socket_wrapper::send_message` (src/reactor/router_socket_wrapper.cpp:9-28). -/
def Router.sendMessage (r : Router) (m : Msg) : Router :=
  r.sendAll (wrapperFrames m.identity m.data)

/-! ## Receiving -/

/-- What `recv` gives for a multipart message: each frame with the value of `more()` after it. -/
def recvFrames : List String → List (String × Bool) := dataFrames

/-- The loop `while (msg.more()) { recv; data.emplace_back }`
    (src/reactor/router_socket_wrapper.cpp:43-51, src/reactor/reactor.cpp:109-112 and 204-207):
    `more` is the flag of the frame read last; gives the frames read and what is left of the
    input. -/
def recvMore : Bool → List (String × Bool) → List String × List (String × Bool)
  | true, (f, m) :: t => let (fs, rest) := recvMore m t; (f :: fs, rest)
  | _, l => ([], l)

/-- `router_socket_wrapper::receive_message` (src/reactor/router_socket_wrapper.cpp:30-54) with the
    key set by the reactor (src/reactor/reactor.cpp:91-92), on the frames ZeroMQ delivers; `none`
    stands for blocking (no frame available), which cannot happen after `zmq::poll` reported the
    socket readable. -/
def receiveMessage (key : String) : List (String × Bool) → Option (Msg × List (String × Bool))
  | [] => none
  | (identity, more) :: t =>
    let (data, rest) := recvMore more t
    some (⟨key, identity, data⟩, rest)

/-! ## The asynchronous handler wrapper -/

/-- `asynchronous_handler_wrapper::TERMINATE_MSG` (src/reactor/reactor.cpp:147). -/
def terminateMsg : String := "TERMINATE"

/-- The `send` calls of `asynchronous_handler_wrapper::operator()` (src/reactor/reactor.cpp:169-178);
    `uid` is `unique_id_`. -/
def asyncFrames (uid : String) (m : Msg) : List (String × Bool) :=
  (uid, true) :: (m.key, true) :: (m.identity, true) :: dataFrames m.data

/-- What one turn of the loop in `handler_thread` does with the frames it reads
    (src/reactor/reactor.cpp:186-210). -/
inductive Turn where
  /-- `return` -/
  | stop
  /-- `continue` -/
  | skip
  /-- `handler_->on_request(request, …)` -/
  | request (m : Msg)
  deriving DecidableEq, Repr

/-- One turn of the loop in `handler_thread` (src/reactor/reactor.cpp:186-210), on the frames in the
    `DEALER` socket; gives what is done and the frames left.  `none`: blocked in `recv`. -/
def threadTurn : List (String × Bool) → Option (Turn × List (String × Bool))
  | [] => none
  | (key, more) :: t =>
    if key = terminateMsg then some (.stop, t)
    else if !more then some (.skip, t)
    else match t with
      | [] => none
      | (identity, more') :: t' =>
        let (data, rest) := recvMore more' t'
        some (.request ⟨key, identity, data⟩, rest)

/-- The `send` calls of `asynchronous_handler_wrapper::send_response`
    (src/reactor/reactor.cpp:214-222), on the `DEALER` socket of the handler thread. -/
def responseFrames (m : Msg) : List (String × Bool) :=
  (m.key, true) :: (m.identity, true) :: dataFrames m.data

/-- How the reactor reads a message from an asynchronous handler (src/reactor/reactor.cpp:98-112):
    the identity frame the `ROUTER` socket puts in front, the key, the identity and the data. -/
def recvAsync : List (String × Bool) → Option (Msg × List (String × Bool))
  | _ :: (key, _) :: (identity, more) :: t =>
    let (data, rest) := recvMore more t
    some (⟨key, identity, data⟩, rest)
  | _ => none

end Broker
