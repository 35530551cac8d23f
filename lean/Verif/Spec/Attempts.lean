import Verif.Spec.Log

/-!
# What the log says about attempts to process a job
-/

namespace Broker.Spec

/-- How often the log tells that the job was sent to a worker. -/
def sentTimes (j : String) (log : List LogEntry) : Nat :=
  (log.filterMap sentEntry).countP fun e => e.1 == j

/-- How the attempt to find another worker for the job ended. -/
inductive Settled (j : String) : LogEntry → Prop
  | sent (w : String) : Settled j (.sent j w)
  | waiting : Settled j (.waiting j)
  | notEnqueued : Settled j (.notEnqueued j)

end Broker.Spec
