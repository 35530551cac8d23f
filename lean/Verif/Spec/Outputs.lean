import Verif.Model.Handler

/-!
# The forms of messages the broker handler emits
-/

namespace Broker.Spec

/-- The three forms of notifications: an error, a finished job, a failed job. -/
inductive Notifies : List String → Prop
  | error (text : String) : Notifies ["type", "error", "message", text]
  | ok (job : String) : Notifies ["type", "job-status", "id", job, "status", "OK"]
  | failed (job text : String) :
    Notifies ["type", "job-status", "id", job, "status", "FAILED", "message", text]

/-- A message for one of the four destinations, well formed as far as the destination needs it;
    messages for the monitor without frames are allowed if `bare` holds. -/
def OutShape (bare : Prop) (o : Msg) : Prop :=
  o.key = "workers" ∨ (o.key = "clients" ∧ o.data ≠ []) ∨
    (o.key = "monitor" ∧ o.identity = "recodex-monitor" ∧ (o.data = [] → bare)) ∨
    (o.key = "status_notifier" ∧ o.identity = "" ∧ Notifies o.data)

/-- A `progress` message of a worker without anything else. -/
def bareProgress (m : Msg) : Prop := m.key = "workers" ∧ m.data = ["progress"]

end Broker.Spec
