import Verif.Spec.Run

/-!
# Identities of workers in messages, and messages with other identities
-/

namespace Broker.Spec

/-- What the broker calls a worker in its messages: its identity in hexadecimal and, if it has one, its
    own description. -/
def describe (identity description : String) : String :=
  stringToHex identity ++ (if description = "" then "" else " (" ++ description ++ ")")

/-- The complaint about a worker that introduces itself again with other headers. -/
def twice (worker : String) : Msg :=
  ⟨"status_notifier", "", ["type", "error", "message",
    "Received two different INIT messages from the same worker (" ++ worker ++ ")"]⟩

/-- The notification about a job that is lost because its worker does not respond any more. -/
def lost (job worker : String) : Msg :=
  ⟨"status_notifier", "", ["type", "job-status", "id", job, "status", "FAILED", "message",
    "Worker " ++ worker ++ " dieded"]⟩

/-- A message of the broker and the same message with other identities of workers: they are the
    addresses of the messages to workers, and they occur in the texts of two notifications. -/
inductive Named (f : String → String) : Msg → Msg → Prop
  | worker (i : String) (d : List String) : Named f ⟨"workers", i, d⟩ ⟨"workers", f i, d⟩
  | same (m : Msg) (h : m.key ≠ "workers") : Named f m m
  | twice (i d : String) : Named f (twice (describe i d)) (twice (describe (f i) d))
  | lost (j i d : String) : Named f (lost j (describe i d)) (lost j (describe (f i) d))

/-- A message of the broker and the same message with other identities and other descriptions of
    workers; `τ` tells which descriptions may replace which ones. -/
inductive Told (f : String → String) (τ : String → String → Prop) : Msg → Msg → Prop
  | worker (i : String) (d : List String) : Told f τ ⟨"workers", i, d⟩ ⟨"workers", f i, d⟩
  | same (m : Msg) (h : m.key ≠ "workers") : Told f τ m m
  | twice (i : String) {d d' : String} (h : τ d d') :
    Told f τ (twice (describe i d)) (twice (describe (f i) d'))
  | lost (j i : String) {d d' : String} (h : τ d d') :
    Told f τ (lost j (describe i d)) (lost j (describe (f i) d'))

/-- A message to the broker: identities of workers are the senders of their messages. -/
def nameInp (f : String → String) (m : Msg) : Msg :=
  if m.key = "workers" then { m with identity := f m.identity } else m

end Broker.Spec

namespace Broker

theorem describe_eq (w : Worker) : w.getDescription = Spec.describe w.identity w.description := by
  unfold Worker.getDescription Spec.describe
  split <;> simp [String.append_assoc]

end Broker
