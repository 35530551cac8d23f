import Mathlib.Data.List.Forall2
import Verif.Spec.Capability
import Verif.Spec.Transcript

/-!
# Two groups of workers

The workers are divided by their identities, the evaluation requests in any way.  The division is good
if no worker can process a request of the other group.
-/

namespace Broker.Spec

/-- The message belongs to our group: it comes from one of our workers, or it is one of our evaluation
    requests, or it does not belong to a group at all.  Requests for statistics, which are about both
    groups, do not belong to ours. -/
def ours (mine : String → Bool) (asks : Msg → Bool) (m : Msg) : Bool :=
  if m.key = "workers" then mine m.identity
  else if m.key = "clients" then
    if m.data.head? = some "eval" then asks m else m.data.head? != some "get-runtime-stats"
  else true

/-- No worker can process requests of the other group. -/
def Apart (mine : String → Bool) (asks : Msg → Bool) (ms : List Msg) : Prop :=
  ∀ i g rest, (⟨"workers", i, "init" :: g :: rest⟩ : Msg) ∈ ms →
    ∀ c j fs, (⟨"clients", c, "eval" :: j :: fs⟩ : Msg) ∈ ms →
      mine i ≠ asks ⟨"clients", c, "eval" :: j :: fs⟩ →
        ¬ Capable g (headerFrames rest) (headerFrames fs)

/-- Someone of the other group asks for the job or says it is working on it. -/
def Theirs (mine : String → Bool) (asks : Msg → Bool) (ms : List Msg) (j : String) : Prop :=
  ∃ m ∈ ms, ours mine asks m = false ∧
    (m.key = "clients" ∧ m.data.take 2 = ["eval", j] ∨
      m.key = "workers" ∧ m.data.head? = some "init" ∧ currentJob m.data = some j)

/-- What is sent to workers and about results of jobs concerns the other group. -/
def Unseen (mine : String → Bool) (theirs : String → Prop) (m : Msg) : Prop :=
  (m.key = "workers" → mine m.identity = false) ∧
  (m.key = "status_notifier" → ∀ j, m.data.take 4 = ["type", "job-status", "id", j] → theirs j)

/-- What is sent concerns the other group. -/
def Elsewhere (mine : String → Bool) (theirs : String → Prop) (m : Msg) : Prop :=
  Unseen mine theirs m ∧ (m.key = "monitor" → ∀ j, m.data.head? = some j → theirs j)

/-- The second list is the first one with some of the messages left out, all of them with this
    property. -/
inductive LeavesOut (F : Msg → Prop) : List Msg → List Msg → Prop
  | nil : LeavesOut F [] []
  | keep (m : Msg) {l l' : List Msg} (h : LeavesOut F l l') : LeavesOut F (m :: l) (m :: l')
  | drop {m : Msg} (hm : F m) {l l' : List Msg} (h : LeavesOut F l l') : LeavesOut F (m :: l) l'

/-- What the broker sends to a worker. -/
def sentTo (i : String) (l : List (List Msg × Option Err)) : List Msg :=
  (l.flatMap (·.1)).filter fun m => m.key = "workers" ∧ m.identity = i

/-- What the broker tells the frontend about the result of a job. -/
def toldAbout (j : String) (l : List (List Msg × Option Err)) : List Msg :=
  (l.flatMap (·.1)).filter fun m =>
    m.key = "status_notifier" ∧ m.data.take 4 = ["type", "job-status", "id", j]

/-- Two brokers, the second one without the messages of the other group.  It answers each message of
    our group in the same way.  When the timer fires, it does the same, except for what concerns the
    other group.  What the first broker does for the messages of the other group does not concern us. -/
def SameForUs (mine : String → Bool) (asks : Msg → Bool) (ms : List Msg)
    (full part : List (List Msg × Option Err)) : Prop :=
  List.Forall₂ (fun x y => y.2 = none ∧
      if x.1.key = "timer" then LeavesOut (Elsewhere mine (Theirs mine asks ms)) x.2.1 y.1 else y.1 = x.2.1)
    ((ms.zip full).filter fun x => ours mine asks x.1) part ∧
  ∀ x ∈ ms.zip full, ours mine asks x.1 = false → ∀ m ∈ x.2.1, Unseen mine (Theirs mine asks ms) m

end Broker.Spec
