import Verif.Spec.Run

/-!
# How much the broker sends and receives

Numbers of messages by socket and, for what the broker received, by command.
-/

namespace Broker.Spec

variable {Q : Type}

/-- Number of messages received on the socket `k` with the command `c`. -/
def came (k c : String) (h : List (Tr Q)) : Nat :=
  h.countP (fun t => t.msg.key == k && t.msg.data.head? == some c)

/-- Number of messages received on the socket `k`. -/
def arrived (k : String) (h : List (Tr Q)) : Nat := h.countP (fun t => t.msg.key == k)

/-- Number of messages sent to the socket `k`. -/
def left (k : String) (h : List (Tr Q)) : Nat := (emitted h).countP (fun o => o.key == k)

end Broker.Spec
