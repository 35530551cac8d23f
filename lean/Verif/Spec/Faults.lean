import Verif.Model.Faults
import Verif.Spec.System

/-!
# What the properties about failing ZeroMQ calls say
-/

namespace Broker.Spec

variable {Q : Type}

/-- The frames of these messages in order, the identities among them. -/
def frames (l : List (String × List String)) : List String := l.flatMap fun x => x.1 :: x.2

/-- Every message from the socket `k` that the reactor passed to its handlers is one that arrived at
    this socket. -/
def OnlyArrivals (k : String) (s : Sys Q) : Prop :=
  ∀ m ∈ s.handled, m.key = k → (k, m.identity, m.data) ∈ s.arrived

/-- `x` is a run of consecutive frames of a message that arrived at socket `k`, or nothing at all. -/
def Piece (k : String) (s : Sys Q) (x : List String) : Prop :=
  x = [""] ∨ ∃ i d before after, (k, i, d) ∈ s.arrived ∧ i :: d = before ++ x ++ after

/-- The main thread is ended by an exception. -/
def EndedBy (exn : Exn) (s : Sys Q) : Prop := s.pc = .halt (.exn exn)

/-- The event is a failing `recv`. -/
def isRecvFailure : FEv → Bool
  | .recvFails _ => true
  | _ => false

/-- The event is a failing `send`, other than the first one for a message. -/
def isMidSendFailure : FEv → Bool
  | .sendFails n => n != 0
  | _ => false

/-- The event without the failure of `send`. -/
def sendsAfterAll : FEv → FEv
  | .sendFails _ => .ok .main
  | ev => ev

/-- The two states differ at most in what was sent on the sockets. -/
def SameButSent (a b : Sys Q) : Prop := ∃ socks, b = { a with socks := socks }

end Broker.Spec
