import Verif.Model.Reactor
import Verif.Spec.Protocol

/-!
# What the properties of the whole process say
-/

namespace Broker.Spec

variable {Q : Type}

/-- The messages for a destination, as peer and frames. -/
def addressed (k : String) (l : List Msg) : List (String × List String) :=
  (l.filter (fun m => m.key == k)).map fun m => (m.identity, m.data)

/-- Everything emitted for this socket has been sent on it, to the right peer, frame by frame and in
    order, except for what the main thread is still about to send; and the socket is not in the
    middle of a message. -/
def Intact (k : String) (s : Sys Q) : Prop :=
  (s.socks k).sent ++ addressed k s.todo = addressed k s.emitted ∧ (s.socks k).cur = none

/-- The notifications among these messages. -/
def notifications (l : List Msg) : List Msg := l.filter (fun m => m.key == "status_notifier")

/-- A registration with the reactor. -/
inductive Reg (α : Type) where
  | socket (name : String)
  | handler (origins : List String) (h : α)

/-- The reactor after these registrations. -/
def registered {α : Type} (rs : List (Reg α)) : Wiring α :=
  rs.foldl (fun w r => match r with
    | .socket n => w.addSocket n
    | .handler os h => w.addHandler os h) Wiring.empty

/-- A socket with this name was registered. -/
def hasSocket {α : Type} (k : String) (rs : List (Reg α)) : Prop := Reg.socket k ∈ rs

/-- The handlers subscribed to this key, in the order of registration. -/
def subscribers {α : Type} (k : String) : List (Reg α) → List α
  | [] => []
  | .socket _ :: t => subscribers k t
  | .handler os h :: t => (os.filter (· == k)).map (fun _ => h) ++ subscribers k t

/-- What arrived on a socket, in order. -/
def received (k : String) (s : Sys Q) : List (String × List String) :=
  (s.arrived.filter (fun x => x.1 == k)).map (·.2)

/-- The oldest message waiting at a socket. -/
def oldest (k : String) (s : Sys Q) : Option Msg :=
  (s.inbox k).head?.map fun x => ⟨k, x.1, x.2⟩

/-- The clock readings around the polls are those of a clock that does not run backwards. -/
def Monotone (polls : List (Int × Int)) : Prop :=
  (∀ p ∈ polls, p.1 ≤ p.2) ∧ polls.Pairwise (fun p q => p.2 ≤ q.1)

/-- Time spent waiting for messages, in nanoseconds. -/
def waited (polls : List (Int × Int)) : Int := (polls.map (fun p => p.2 - p.1)).sum

/-- The event is a return of `zmq::poll`. -/
def isPoll : SysEv → Prop
  | .poll _ _ => True
  | _ => False

/-- Whenever the main thread passes a notification on, the notifier thread is connected and the pipe
    has room. -/
def Unhurried [QueueManager Q] (cfg : HConfig) (env : Env) (e : SysEnv) (evs : List SysEv) : Prop :=
  ∀ evs1 evs2 (s1 : Sys Q), evs = evs1 ++ .main :: evs2 → SRun cfg env e evs1 s1 →
    ∀ m rest, s1.todo = m :: rest → m.key = "status_notifier" →
      s1.thread ≠ .starting ∧ s1.pipe.length < e.room

end Broker.Spec
