import Verif.Model.Process

/-!
# What the properties of the start and the end of the process say
-/

namespace Broker.Spec

variable {Q : Type}

/-- The process has ended, or has nothing left to do but wait for the notifier thread and end, with
    this status. -/
def EndsWith (code : Nat) (p : Proc Q) : Prop :=
  (∃ lines, p.phase = .done ⟨code, lines⟩) ∨ p.phase = .joining code

/-- Number of returns of `zmq::poll` among the events. -/
def pollCount (evs : List PEv) : Nat :=
  evs.countP fun ev => match ev with
    | .sys (.poll _ _) => true
    | _ => false

/-- What the process writes to the standard error stream and the status it ends with when it cannot
    start; `none`: it starts. -/
def startFailure (c : Conv) (junk : Nat) (w : World) : CmdLine → Option (List String)
  | .bad what => some ["Error in loading a parameter: " ++ what]
  | .options true _ => some [w.usage]
  | .options false config =>
    match w.file (config.getD "config.yml") with
    | .error what => some ["Error loading config file: " ++ what]
    | .ok doc =>
      match loadConfig c junk doc with
      | .error _ => some ["Error loading config file: " ++ w.badConfig doc]
      | .ok b =>
        match w.log with
        | some what => some ["Logger: " ++ what, "Something very bad happend!"]
        | none =>
          if b.queueManager = "multi" ∨ b.queueManager = "single" then
            if w.net then none else some ["Something very bad happend!"]
          else some ["Unknown queue manager '" ++ b.queueManager ++
            "'. Available managers are 'single' and 'multi'."]

end Broker.Spec
