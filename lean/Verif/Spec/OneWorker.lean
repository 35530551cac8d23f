import Verif.Spec.Transcript
import Verif.Model.Multi

/-!
# At most one worker (C75)
-/

namespace Broker.Spec

/-- However far the messages have been handled, at most one worker is registered. -/
def NeverTwo (cfg : HConfig) (env : Env) (ms : List Msg) : Prop :=
  ∀ (h : List (Tr Multi)) (s : HState Multi), Run cfg env h s → h.map (·.msg) <+: ms →
    s.workers.length ≤ 1

/-- Arrival times tell the order of arrival: either the clock never shows the same time twice and
    never goes back, or it never goes back and the sorting algorithm leaves sorted lists alone. -/
def InOrder (env : Env) : Prop :=
  (∀ m n, m < n → env.clock m < env.clock n) ∨
  (∀ m n, m < n → env.clock m ≤ env.clock n) ∧
    ∀ l : List Entry, l.Pairwise (fun a b => a.2 ≤ b.2) → env.srt.sort l = l

/-- No worker says that it is processing a job when it registers. -/
def NoneAnnounced (ms : List Msg) : Prop :=
  ∀ m ∈ ms, m.key = "workers" → m.data.head? = some "init" → currentJob m.data = none

/-- What is seen of a transcript by somebody who ignores messages to workers that have no frames. -/
def withoutEmpty (l : List (List Msg × Option Err)) : List (List Msg × Option Err) :=
  l.map fun x => (x.1.filter (fun o => !(o.key == "workers" && o.data == [])), x.2)

end Broker.Spec
