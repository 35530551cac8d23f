import Verif.Model.Handler
import Verif.Proof.Laws

/-!
# Life cycle of requests

The behaviour of the broker handler is explained by a small machine: requests move between workers
(`busy`), the queue (`que`) and the hands of the handler (`hand`).  `Verif.Proof.Refine` shows that
every execution of the handler is an execution of this machine.
-/

namespace Broker

/-- State of the machine. -/
structure LS where
  reg : Multiset Worker
  busy : Multiset (Worker × Req)
  que : Multiset Req
  hand : Multiset Req
  fc : Nat → Nat
  nextRid : Nat

/-- Events of the machine. -/
inductive Ev where
  /-- a message without influence on requests -/
  | say (m : Msg)
  /-- a request object that is dropped -/
  | drop
  /-- a client's request is accepted -/
  | accept (r : Req)
  /-- a worker registers, possibly with a current job -/
  | register (w : Worker) (cur : Option Req)
  /-- a request in hand goes to a worker -/
  | send (w : Worker) (r : Req)
  /-- a request in hand goes to the queue -/
  | park (r : Req)
  /-- a waiting request goes to a worker -/
  | pull (w : Worker) (r : Req)
  /-- the current job of a worker is sent back to it (single-queue manager, at registration) -/
  | resend (w : Worker) (r : Req)
  /-- a worker reports success -/
  | done (w : Worker) (r : Req)
  /-- a worker reports failure -/
  | failed (w : Worker) (r : Req) (text : String)
  /-- a worker reports an internal error -/
  | cancel (w : Worker) (r : Req)
  /-- a worker expires -/
  | expire (w : Worker) (cur : Option Req) (qs : List Req)
  /-- the broker gives up on a request in hand -/
  | giveUp (r : Req) (text : String)

/-- Message about a failed job. -/
def failMsg (jobId text : String) : Msg :=
  ⟨keyNotifier, "", ["type", "job-status", "id", jobId, "status", "FAILED", "message", text]⟩

/-- Message about a finished job. -/
def okMsg (jobId : String) : Msg :=
  ⟨keyNotifier, "", ["type", "job-status", "id", jobId, "status", "OK"]⟩

/-- Message that gives a request to a worker. -/
def sendMsg (w : Worker) (r : Req) : Msg := ⟨keyWorkers, w.identity, r.frames⟩

/-- Message to the monitor. -/
def monMsg (jobId text : String) : Msg := ⟨keyMonitor, monitorIdentity, [jobId, text]⟩

/-- Messages of an event. -/
def Ev.msgs : Ev → List Msg
  | .say m => [m]
  | .drop => []
  | .accept _ => []
  | .register _ _ => []
  | .send w r => [sendMsg w r]
  | .park _ => []
  | .pull w r => [sendMsg w r]
  | .resend w r => [sendMsg w r]
  | .done _ r => [okMsg r.jobId]
  | .failed _ r text => [failMsg r.jobId text]
  | .cancel _ _ => []
  | .expire _ _ _ => []
  | .giveUp r text => [failMsg r.jobId text]

/-- Messages of a sequence of events. -/
def msgsOf (evs : List Ev) : List Msg := evs.flatMap Ev.msgs

@[simp] theorem msgsOf_nil : msgsOf [] = [] := rfl
@[simp] theorem msgsOf_cons (e : Ev) (t : List Ev) : msgsOf (e :: t) = e.msgs ++ msgsOf t := by
  simp [msgsOf]
@[simp] theorem msgsOf_append (a b : List Ev) : msgsOf (a ++ b) = msgsOf a ++ msgsOf b := by
  simp [msgsOf]

/-- The request may still be given to workers under a limit of `M` failures. -/
def Alive (M : Nat) (fc : Nat → Nat) (r : Req) : Prop := fc r.rid = 0 ∨ fc r.rid < M

/-- Nobody can process the request. -/
def Hopeless (reg : Multiset Worker) (r : Req) : Prop :=
  ∀ w ∈ reg, w.checkHeaders r.headers = .ok false

/-- Increment of the failure count. -/
def bump (fc : Nat → Nat) (r : Req) : Nat → Nat := upd fc r.rid (szInc (fc r.rid))

/-- Increment for an optional request. -/
def bumpOpt (fc : Nat → Nat) : Option Req → Nat → Nat
  | none => fc
  | some r => bump fc r

/-- Steps of the machine; `M` is the maximal number of failures. -/
inductive LStep (M : Nat) : LS → Ev → LS → Prop
  | say (L : LS) (m : Msg) : LStep M L (.say m) L
  | drop (L : LS) :
    LStep M L .drop { L with nextRid := L.nextRid + 1, fc := upd L.fc L.nextRid 0 }
  | accept (L : LS) (r : Req) (hid : r.rid = L.nextRid) (hc : r.complete = true)
      (hcan : ∃ w ∈ L.reg, w.Can r.headers) :
    LStep M L (.accept r) { L with
      hand := r ::ₘ L.hand, nextRid := L.nextRid + 1, fc := upd L.fc L.nextRid 0 }
  | register (L : LS) (w : Worker) (cur : Option Req) (hw : w.WF)
      (hf : w.addr ∉ L.reg.map (·.addr))
      (hcur : ∀ r, cur = some r → ∃ j, r = Req.incomplete L.nextRid j) :
    LStep M L (.register w cur) { L with
      reg := w ::ₘ L.reg, busy := (cur.map (fun r => (w, r))).toList + L.busy,
      nextRid := L.nextRid + 1, fc := upd L.fc L.nextRid 0 }
  | send (L : LS) (w : Worker) (r : Req) (h : Multiset Req) (hh : L.hand = r ::ₘ h)
      (hw : w ∈ L.reg) (hidle : ∀ r', (w, r') ∉ L.busy) (hcan : w.Can r.headers)
      (hcomp : r.complete = true) (hfc : Alive M L.fc r) :
    LStep M L (.send w r) { L with hand := h, busy := (w, r) ::ₘ L.busy }
  | park (L : LS) (r : Req) (h : Multiset Req) (hh : L.hand = r ::ₘ h)
      (hcan : ∃ w ∈ L.reg, w.Can r.headers)
      (hcomp : r.complete = true) (hfc : Alive M L.fc r) :
    LStep M L (.park r) { L with hand := h, que := r ::ₘ L.que }
  | pull (L : LS) (w : Worker) (r : Req) (q : Multiset Req) (hq : L.que = r ::ₘ q)
      (hw : w ∈ L.reg) (hidle : ∀ r', (w, r') ∉ L.busy) (hcan : w.Can r.headers) :
    LStep M L (.pull w r) { L with que := q, busy := (w, r) ::ₘ L.busy }
  | resend (L : LS) (w : Worker) (r : Req) (hb : (w, r) ∈ L.busy) (hc : r.complete = false)
      (hf : r.frames = []) :
    LStep M L (.resend w r) L
  | done (L : LS) (w : Worker) (r : Req) (b : Multiset (Worker × Req))
      (hb : L.busy = (w, r) ::ₘ b) :
    LStep M L (.done w r) { L with busy := b }
  | failed (L : LS) (w : Worker) (r : Req) (text : String) (b : Multiset (Worker × Req))
      (hb : L.busy = (w, r) ::ₘ b) :
    LStep M L (.failed w r text) { L with busy := b, fc := bump L.fc r }
  | cancel (L : LS) (w : Worker) (r : Req) (b : Multiset (Worker × Req))
      (hb : L.busy = (w, r) ::ₘ b) :
    LStep M L (.cancel w r) { L with busy := b, hand := r ::ₘ L.hand, fc := bump L.fc r }
  | expire (L : LS) (w : Worker) (cur : Option Req) (qs : List Req) (g : Multiset Worker)
      (b : Multiset (Worker × Req)) (q : Multiset Req) (hg : L.reg = w ::ₘ g)
      (hb : L.busy = (cur.map (fun r => (w, r))).toList + b) (hq : L.que = (qs : Multiset Req) + q) :
    LStep M L (.expire w cur qs) { L with
      reg := g, busy := b, que := q,
      hand := (cur.toList ++ qs : List Req) + L.hand, fc := bumpOpt L.fc cur }
  | giveUp (L : LS) (r : Req) (text : String) (h : Multiset Req) (hh : L.hand = r ::ₘ h)
      (hwhy : r.complete = false ∨ M ≤ L.fc r.rid ∨ Hopeless L.reg r) :
    LStep M L (.giveUp r text) { L with hand := h }

/-- Sequences of steps. -/
inductive LSteps (M : Nat) : LS → List Ev → LS → Prop
  | nil (L : LS) : LSteps M L [] L
  | cons {L L' L'' : LS} {e : Ev} {es : List Ev} (h : LStep M L e L') (ht : LSteps M L' es L'') :
    LSteps M L (e :: es) L''

theorem LSteps.single {M : Nat} {L L' : LS} {e : Ev} (h : LStep M L e L') : LSteps M L [e] L' :=
  .cons h (.nil _)

theorem LSteps.append {M : Nat} {L L' L'' : LS} {a b : List Ev} (h1 : LSteps M L a L')
    (h2 : LSteps M L' b L'') : LSteps M L (a ++ b) L'' := by
  induction h1 with
  | nil => exact h2
  | cons h _ ih => exact .cons h (ih h2)

theorem LSteps.append_inv {M : Nat} {L L'' : LS} {a b : List Ev} (h : LSteps M L (a ++ b) L'') :
    ∃ L', LSteps M L a L' ∧ LSteps M L' b L'' := by
  induction a generalizing L with
  | nil => exact ⟨L, .nil _, h⟩
  | cons e t ih =>
    cases h with
    | cons h1 h2 =>
      obtain ⟨L', h3, h4⟩ := ih h2
      exact ⟨L', .cons h1 h3, h4⟩

end Broker
