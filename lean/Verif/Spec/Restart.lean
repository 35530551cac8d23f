import Verif.Spec.Peer

/-!
# Workers that outlive the broker

`Spec/Peer.lean` has one broker that is never restarted and a wire that loses nothing.  Here the
broker process may be started anew at any time, with another configuration, while the worker keeps
running and the messages under way stay under way.  If the world is `lossy`, messages may get lost in
both directions, and the worker may set up its connection anew, which loses everything under way and
makes it stop waiting for an answer.  If the worker is `mortal`, it may be started anew as well, which
loses everything under way and the job it was processing.

The worker is patient throughout: it does not ping again before the last ping was answered or the
connection was set up anew.
-/

namespace Broker.Spec

variable {Q : Type}

/-- The worlds that can be reached, with the configuration and the environment of the broker process
    that is running and everything all broker processes emitted. -/
inductive Endured [QueueManager Q] (me : Me) (lossy mortal : Bool) :
    HConfig → Env → List Msg → World Q → Prop
  | start (cfg : HConfig) (env : Env) : Endured me lossy mortal cfg env [] ⟨HState.init Q, {}⟩
  | own {cfg : HConfig} {env : Env} {os : List Msg} {b : HState Q} {p p' : Peer}
      (h : Endured me lossy mortal cfg env os ⟨b, p⟩) (ho : Own true p p') :
    Endured me lossy mortal cfg env os ⟨b, p'⟩
  | handle {cfg : HConfig} {env : Env} {os : List Msg} {b b' : HState Q} {p : Peer} {x : Said}
      {rest : List Said} (h : Endured me lossy mortal cfg env os ⟨b, p⟩) (hx : p.outbox = x :: rest)
      (hs : step cfg env (me.msg x) b = .ok () b') :
    Endured me lossy mortal cfg env (os ++ b'.outs)
      ⟨b', { p with outbox := rest, inbox := p.inbox ++ forPeer me.identity b'.outs }⟩
  | other {cfg : HConfig} {env : Env} {os : List Msg} {b b' : HState Q} {p : Peer} {m : Msg}
      (h : Endured me lossy mortal cfg env os ⟨b, p⟩)
      (hm : ¬ (m.key = "workers" ∧ m.identity = me.identity))
      (hs : step cfg env m b = .ok () b') :
    Endured me lossy mortal cfg env (os ++ b'.outs)
      ⟨b', { p with inbox := p.inbox ++ forPeer me.identity b'.outs }⟩
  /-- the broker process ends, for whatever reason, and another one is started -/
  | restart {cfg : HConfig} {env : Env} {os : List Msg} {b : HState Q} {p : Peer}
      (h : Endured me lossy mortal cfg env os ⟨b, p⟩) (cfg' : HConfig) (env' : Env) :
    Endured me lossy mortal cfg' env' os ⟨HState.init Q, p⟩
  /-- messages get lost -/
  | lose {cfg : HConfig} {env : Env} {os : List Msg} {b : HState Q} {p : Peer}
      (h : Endured me lossy mortal cfg env os ⟨b, p⟩) (hl : lossy = true) {out : List Said}
      {inb : List (List String)} (ho : out.Sublist p.outbox) (hi : inb.Sublist p.inbox) :
    Endured me lossy mortal cfg env os ⟨b, { p with outbox := out, inbox := inb }⟩
  /-- the worker sets up its connection anew -/
  | reconnect {cfg : HConfig} {env : Env} {os : List Msg} {b : HState Q} {p : Peer}
      (h : Endured me lossy mortal cfg env os ⟨b, p⟩) (hl : lossy = true) :
    Endured me lossy mortal cfg env os
      ⟨b, { p with outbox := [], inbox := [], waiting := false }⟩
  /-- the worker process ends; another one may be started -/
  | die {cfg : HConfig} {env : Env} {os : List Msg} {b : HState Q} {p : Peer}
      (h : Endured me lossy mortal cfg env os ⟨b, p⟩) (hm : mortal = true) :
    Endured me lossy mortal cfg env os ⟨b, {}⟩

/-- The same with all workers; `mes i` is the worker with the identity `i`. -/
inductive Outlived [QueueManager Q] (mes : String → Me) (lossy : Bool) :
    HConfig → Env → Deployment Q → Prop
  | start (cfg : HConfig) (env : Env) : Outlived mes lossy cfg env ⟨HState.init Q, fun _ => {}⟩
  | own {cfg : HConfig} {env : Env} {b : HState Q} {ps : String → Peer} {p' : Peer}
      (h : Outlived mes lossy cfg env ⟨b, ps⟩) (i : String) (ho : Own true (ps i) p') :
    Outlived mes lossy cfg env ⟨b, fun k => if k = i then p' else ps k⟩
  | handle {cfg : HConfig} {env : Env} {b b' : HState Q} {ps : String → Peer} {x : Said}
      {rest : List Said} (h : Outlived mes lossy cfg env ⟨b, ps⟩) (i : String)
      (hx : (ps i).outbox = x :: rest) (hs : step cfg env ((mes i).msg x) b = .ok () b') :
    Outlived mes lossy cfg env ⟨b', fun k => { ps k with
      outbox := if k = i then rest else (ps k).outbox,
      inbox := (ps k).inbox ++ forPeer k b'.outs }⟩
  | other {cfg : HConfig} {env : Env} {b b' : HState Q} {ps : String → Peer} {m : Msg}
      (h : Outlived mes lossy cfg env ⟨b, ps⟩) (hm : m.key ≠ "workers")
      (hs : step cfg env m b = .ok () b') :
    Outlived mes lossy cfg env
      ⟨b', fun k => { ps k with inbox := (ps k).inbox ++ forPeer k b'.outs }⟩
  | restart {cfg : HConfig} {env : Env} {b : HState Q} {ps : String → Peer}
      (h : Outlived mes lossy cfg env ⟨b, ps⟩) (cfg' : HConfig) (env' : Env) :
    Outlived mes lossy cfg' env' ⟨HState.init Q, ps⟩
  | lose {cfg : HConfig} {env : Env} {b : HState Q} {ps : String → Peer}
      (h : Outlived mes lossy cfg env ⟨b, ps⟩) (hl : lossy = true) {out : String → List Said}
      {inb : String → List (List String)} (ho : ∀ k, (out k).Sublist (ps k).outbox)
      (hi : ∀ k, (inb k).Sublist (ps k).inbox) :
    Outlived mes lossy cfg env ⟨b, fun k => { ps k with outbox := out k, inbox := inb k }⟩
  | reconnect {cfg : HConfig} {env : Env} {b : HState Q} {ps : String → Peer}
      (h : Outlived mes lossy cfg env ⟨b, ps⟩) (hl : lossy = true) (i : String) :
    Outlived mes lossy cfg env ⟨b, fun k => if k = i then
      { ps k with outbox := [], inbox := [], waiting := false } else ps k⟩

end Broker.Spec
