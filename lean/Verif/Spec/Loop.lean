import Verif.Model.Loop
import Verif.Spec.System

/-!
# What the properties of the reactor with any handlers say
-/

namespace Broker.Reactor

/-- All messages the handler passes to the response callback have this property, whatever the state
    of its object is when the callback returns. -/
def Prog.Sends {σ : Type} (P : Msg → Prop) : Prog σ → Prop
  | .done _ => True
  | .throw _ => True
  | .respond _ m k => P m ∧ ∀ v, (k v).Sends P

variable {α : Type}

/-- The handlers called directly are in layers: what they pass to the response callback is for
    sockets, for asynchronous handlers and for handlers in lower layers. -/
def Layered (S : Setup α) (rs : List (Spec.Reg α)) (layer : α → Nat) : Prop :=
  ∀ a, S.isAsync a = false → ∀ x m v, ((S.obj a).onRequest x m v).Sends fun m' =>
    Spec.hasSocket m'.key rs ∨
      ∀ b ∈ Spec.subscribers m'.key rs, S.isAsync b = true ∨ layer b < layer a

/-- The event is a step of the main thread. -/
def Ev.isMain : Ev α → Prop
  | .main _ _ => True
  | _ => False

/-- What arrived at a socket. -/
def arrivals (k : String) (evs : List (Ev α)) : List (String × List String) :=
  evs.filterMap (fun ev => match ev with
    | .arrive k' i d => if k' = k then some (i, d) else none
    | _ => none)

/-- The messages passed to asynchronous wrappers have frames and do not look like the termination
    message, the responses of asynchronous handlers have frames. -/
structure Framed {S : Setup α} (s : St S) : Prop where
  posted : ∀ a, ∀ p ∈ s.posted a, p.1.data ≠ [] ∧ p.1.key ≠ "TERMINATE"
  replied : ∀ a, ∀ m ∈ s.replied a, m.data ≠ []

/-- The messages that were passed to an asynchronous handler and not dropped by ZeroMQ. -/
def accepted {S : Setup α} (s : St S) (a : α) : List Msg := ((s.posted a).filter (·.2)).map (·.1)

end Broker.Reactor
