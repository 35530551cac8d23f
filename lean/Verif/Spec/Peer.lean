import Verif.Spec.Protocol

/-!
# A worker that follows the protocol

The broker together with one worker at the other end of the wire.  The wire keeps the order of the
messages in each direction and delays them arbitrarily; everything else the broker receives (other
workers, clients, timer) is arbitrary.

The worker introduces itself once when it starts.  It starts the job of every evaluation message, and
later reports it done, once.  It reports progress whenever it likes.  It pings whenever it likes, and
answers `intro` by introducing itself again with the job it is processing at that moment.
-/

namespace Broker.Spec

variable {Q : Type}

/-- Result of a job. -/
inductive Outcome where
  | ok
  | failed (text : String)
  | internal (text : String)
deriving DecidableEq

/-- Messages of the worker. -/
inductive Said where
  /-- introduction, with the job being processed -/
  | init (job : Option String)
  | done (job : String) (o : Outcome)
  | ping
  | progress (fs : List String)
deriving DecidableEq

/-- What the worker says about itself. -/
structure Me where
  identity : String
  group : String
  /-- header frames, none of them empty -/
  headers : List String
  nonempty : "" ∉ headers

/-- Frames of the messages of the worker. -/
def Me.frames (me : Me) : Said → List String
  | .init none => "init" :: me.group :: me.headers
  | .init (some j) => "init" :: me.group :: (me.headers ++ ["", "current_job=" ++ j])
  | .done j .ok => ["done", j, "OK"]
  | .done j (.failed t) => ["done", j, "FAILED", t]
  | .done j (.internal t) => ["done", j, "INTERNAL_ERROR", t]
  | .ping => ["ping"]
  | .progress fs => "progress" :: fs

/-- The message as the broker receives it. -/
def Me.msg (me : Me) (x : Said) : Msg := ⟨"workers", me.identity, me.frames x⟩

/-- The worker and the messages under way. -/
structure Peer where
  started : Bool := false
  /-- the job being processed -/
  job : Option String := none
  /-- a ping was not answered yet -/
  waiting : Bool := false
  /-- messages to the worker under way -/
  inbox : List (List String) := []
  /-- messages from the worker under way -/
  outbox : List Said := []

/-- What the worker does with a message. -/
def Peer.react (p : Peer) : List String → Peer
  | "eval" :: j :: _ => { p with job := some j }
  | "intro" :: _ => { p with waiting := false, outbox := p.outbox ++ [.init p.job] }
  | "pong" :: _ => { p with waiting := false }
  | _ => p

/-- The broker and the worker. -/
structure World (Q : Type) where
  broker : HState Q
  peer : Peer

/-- The messages the broker just emitted, as far as they are for the worker. -/
def forPeer (i : String) (os : List Msg) : List (List String) :=
  (os.filter (fun m => m.key == "workers" && m.identity == i)).map (·.data)

/-- What the worker does on its own.  A `patient` worker does not ping again before the last ping was
    answered. -/
inductive Own (patient : Bool) : Peer → Peer → Prop
  | start {p : Peer} (h : p.started = false) :
    Own patient p { p with started := true, outbox := p.outbox ++ [.init none] }
  | read {p : Peer} {f : List String} {rest : List (List String)} (h : p.inbox = f :: rest) :
    Own patient p ({ p with inbox := rest }.react f)
  | finish {p : Peer} {j : String} (h : p.job = some j) (o : Outcome) :
    Own patient p { p with job := none, outbox := p.outbox ++ [.done j o] }
  | ping {p : Peer} (h : p.started = true) (hp : patient = true → p.waiting = false) :
    Own patient p { p with waiting := true, outbox := p.outbox ++ [.ping] }
  | progress {p : Peer} (h : p.started = true) (fs : List String) :
    Own patient p { p with outbox := p.outbox ++ [.progress fs] }

/-- What can happen: the worker does something on its own, the broker handles a message of the worker,
    the broker handles a message that is not from the worker. -/
inductive WStep [QueueManager Q] (cfg : HConfig) (env : Env) (me : Me) (patient : Bool) :
    World Q → World Q → Prop
  | own {b : HState Q} {p p' : Peer} (h : Own patient p p') :
    WStep cfg env me patient ⟨b, p⟩ ⟨b, p'⟩
  | handle {b b' : HState Q} {p : Peer} {x : Said} {rest : List Said} (h : p.outbox = x :: rest)
      (hs : step cfg env (me.msg x) b = .ok () b') :
    WStep cfg env me patient ⟨b, p⟩
      ⟨b', { p with outbox := rest, inbox := p.inbox ++ forPeer me.identity b'.outs }⟩
  | other {b b' : HState Q} {p : Peer} {m : Msg}
      (hm : ¬ (m.key = "workers" ∧ m.identity = me.identity))
      (hs : step cfg env m b = .ok () b') :
    WStep cfg env me patient ⟨b, p⟩
      ⟨b', { p with inbox := p.inbox ++ forPeer me.identity b'.outs }⟩

/-- The worlds that can be reached. -/
inductive Reached [QueueManager Q] (cfg : HConfig) (env : Env) (me : Me) (patient : Bool) :
    World Q → Prop
  | start : Reached cfg env me patient ⟨HState.init Q, {}⟩
  | step {w w' : World Q} (h : Reached cfg env me patient w)
      (hs : WStep cfg env me patient w w') : Reached cfg env me patient w'

/-- The broker and all workers. -/
structure Deployment (Q : Type) where
  broker : HState Q
  peers : String → Peer

/-- What can happen when every worker follows the protocol, with the messages the broker handles;
    `mes i` is the worker with the identity `i`. -/
inductive DStep [QueueManager Q] (cfg : HConfig) (env : Env) (mes : String → Me) (patient : Bool) :
    Deployment Q → List (Tr Q) → Deployment Q → Prop
  | own {b : HState Q} {ps : String → Peer} {p' : Peer} (i : String) (h : Own patient (ps i) p') :
    DStep cfg env mes patient ⟨b, ps⟩ [] ⟨b, fun k => if k = i then p' else ps k⟩
  | handle {b b' : HState Q} {ps : String → Peer} {x : Said} {rest : List Said} (i : String)
      (h : (ps i).outbox = x :: rest) (hs : step cfg env ((mes i).msg x) b = .ok () b') :
    DStep cfg env mes patient ⟨b, ps⟩ [⟨b, (mes i).msg x, b'⟩]
      ⟨b', fun k => { ps k with
        outbox := if k = i then rest else (ps k).outbox,
        inbox := (ps k).inbox ++ forPeer k b'.outs }⟩
  | other {b b' : HState Q} {ps : String → Peer} {m : Msg} (hm : m.key ≠ "workers")
      (hs : step cfg env m b = .ok () b') :
    DStep cfg env mes patient ⟨b, ps⟩ [⟨b, m, b'⟩]
      ⟨b', fun k => { ps k with inbox := (ps k).inbox ++ forPeer k b'.outs }⟩

/-- The deployments that can be reached, with the history of the broker. -/
inductive Deployed [QueueManager Q] (cfg : HConfig) (env : Env) (mes : String → Me)
    (patient : Bool) : List (Tr Q) → Deployment Q → Prop
  | start : Deployed cfg env mes patient [] ⟨HState.init Q, fun _ => {}⟩
  | step {h l : List (Tr Q)} {d d' : Deployment Q} (hd : Deployed cfg env mes patient h d)
      (hs : DStep cfg env mes patient d l d') : Deployed cfg env mes patient (h ++ l) d'

/-- A proper message of a client or the timer: a command, evaluation requests well-formed, timer
    messages with a number. -/
def Proper (m : Msg) : Prop :=
  m.key ≠ "workers" ∧
  (m.key = "clients" → m.data ≠ [] ∧ (m.data.head? = some "eval" → WellFormedEval m.data)) ∧
  (m.key = "timer" → ∃ t, IsTick m t)

/-- The job the broker thinks the worker with the identity is processing (`none` if it knows no such
    worker). -/
def believes [QueueManager Q] (i : String) (s : HState Q) : Option (Option String) :=
  (s.workers.find? (fun w => w.identity == i)).map
    (fun w => (QueueManager.currentRequest s.queue w).1.map (·.jobId))

end Broker.Spec
