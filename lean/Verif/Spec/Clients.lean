import Verif.Spec.Run

/-!
# What can matter to a client

The facts a message contributes to what the client with a given identity is told: that some worker was
heard of, how a worker introduced itself, how much time passed, that somebody froze or unfroze the
broker, and the requests of the client itself (other than queries for statistics).  What other clients want evaluated is not among them, and
neither is what workers report about jobs.
-/

namespace Broker.Spec

variable {Q : Type}

/-- What can matter to a client. -/
inductive Fact where
  /-- the worker with this identity sent something -/
  | heard (identity : String)
  /-- a worker introduced itself -/
  | hello (identity : String) (data : List String)
  /-- a message of the timer -/
  | time (data : List String)
  /-- somebody else froze or unfroze the broker -/
  | frozen (b : Bool)
  /-- a request of the client, not for statistics -/
  | mine (data : List String)
deriving DecidableEq

/-- The fact a message contributes for the client `i`. -/
def fact? (i : String) (m : Msg) : Option Fact :=
  if m.key = "workers" then
    if m.data.head? = some "init" then some (.hello m.identity m.data) else some (.heard m.identity)
  else if m.key = "clients" then
    if m.identity = i then
      if m.data.head? = some "get-runtime-stats" then none else some (.mine m.data)
    else if m.data.head? = some "freeze" then some (.frozen true)
    else if m.data.head? = some "unfreeze" then some (.frozen false)
    else none
  else if m.key = "timer" then some (.time m.data)
  else none

/-- A query for statistics. -/
def asksStats (m : Msg) : Bool := m.key == "clients" && m.data.head? == some "get-runtime-stats"

/-- The facts of a history that can matter to the client. -/
def factsFor (i : String) (h : List (Tr Q)) : List Fact := h.filterMap (fun t => fact? i t.msg)

/-- The messages for the client `i` among these. -/
def onlyFor (i : String) (os : List Msg) : List Msg :=
  os.filter (fun o => o.key == "clients" && o.identity == i)

/-- Everything the client `i` was told in a history, apart from statistics. -/
def toldTo (i : String) (h : List (Tr Q)) : List Msg :=
  (h.filter (fun t => !asksStats t.msg)).flatMap (fun t => onlyFor i t.outs)

end Broker.Spec
