import Verif.Spec.Run

/-!
# What an observer of the broker sees

The observer sends messages and sees, for each of them, what the broker emitted while handling it
and whether the broker failed.
-/

namespace Broker

variable {Q : Type} [QueueManager Q]

/-- What is seen when the messages are handled one after another from the given state.  After a
    failure (exception, undefined behaviour) there is nothing more to see. -/
def transcript (cfg : HConfig) (env : Env) : HState Q → List Msg → List (List Msg × Option Err)
  | _, [] => []
  | s, m :: ms =>
    match step cfg env m s with
    | .ok _ t => (t.outs, none) :: transcript cfg env t ms
    | .error e t => [(t.outs, some e)]

/-- The transcript of a broker that starts with no workers and no jobs. -/
def observed (Q : Type) [QueueManager Q] (cfg : HConfig) (env : Env) (ms : List Msg) :
    List (List Msg × Option Err) := transcript cfg env (HState.init Q) ms

end Broker
