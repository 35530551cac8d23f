import Verif.Spec.Peer

/-!
# Work and rest

A deployment works when messages under way arrive and workers finish their jobs; nothing new is
started: no client speaks, the timer does not fire, no worker starts, pings or reports progress.
-/

namespace Broker.Spec

variable {Q : Type}

/-- What a worker has to do anyway: read its messages and finish its job, with any result. -/
inductive Task : Peer → Peer → Prop
  | read {p : Peer} {f : List String} {rest : List (List String)} (h : p.inbox = f :: rest) :
    Task p ({ p with inbox := rest }.react f)
  | finish {p : Peer} {j : String} (h : p.job = some j) (o : Outcome) :
    Task p { p with job := none, outbox := p.outbox ++ [.done j o] }

/-- One step of work, with the messages the broker handles. -/
inductive Work [QueueManager Q] (cfg : HConfig) (env : Env) (mes : String → Me) :
    Deployment Q → List (Tr Q) → Deployment Q → Prop
  | own {b : HState Q} {ps : String → Peer} {p' : Peer} (i : String) (h : Task (ps i) p') :
    Work cfg env mes ⟨b, ps⟩ [] ⟨b, fun k => if k = i then p' else ps k⟩
  | handle {b b' : HState Q} {ps : String → Peer} {x : Said} {rest : List Said} (i : String)
      (h : (ps i).outbox = x :: rest) (hs : step cfg env ((mes i).msg x) b = .ok () b') :
    Work cfg env mes ⟨b, ps⟩ [⟨b, (mes i).msg x, b'⟩]
      ⟨b', fun k => { ps k with
        outbox := if k = i then rest else (ps k).outbox,
        inbox := (ps k).inbox ++ forPeer k b'.outs }⟩

/-- Any amount of work. -/
inductive Works [QueueManager Q] (cfg : HConfig) (env : Env) (mes : String → Me) :
    Deployment Q → List (Tr Q) → Deployment Q → Prop
  | nil (d : Deployment Q) : Works cfg env mes d [] d
  | cons {d d' d'' : Deployment Q} {l l' : List (Tr Q)} (h : Work cfg env mes d l d')
      (ht : Works cfg env mes d' l' d'') : Works cfg env mes d (l ++ l') d''

/-- Nothing is under way and no worker processes a job. -/
def AtRest (d : Deployment Q) : Prop :=
  ∀ i, (d.peers i).inbox = [] ∧ (d.peers i).outbox = [] ∧ (d.peers i).job = none

end Broker.Spec
