import Verif.Proof.Peer
import Verif.Props.Robustness
import Verif.Spec.Exec

/-!
# The broker and a worker that follows the protocol (C76)
-/

set_option linter.unusedSectionVars false

namespace Broker

open QueueManager LawfulQM Spec

variable {Q : Type} [QueueManager Q] [LawfulQM Q]

theorem headerFrames_prefix {a b : List String} (h : "" ∉ a) (hb : b = [] ∨ b.head? = some "") :
    headerFrames (a ++ b) = a := by
  unfold headerFrames
  induction a with
  | nil =>
    rcases hb with rfl | hb
    · rfl
    · cases b with
      | nil => rfl
      | cons x t => simp at hb; simp [hb]
  | cons x t ih =>
    have hx : x ≠ "" := fun e => h (by simp [e])
    rw [List.cons_append, List.takeWhile_cons, if_pos (by simpa using hx)]
    rw [ih (fun e => h (by simp [e]))]

/-- **C76 (partial).** A patient worker never brings the broker down: whatever the rest of the world
    does, the broker handles every message of the worker normally. -/
theorem C76_safe_partial {cfg : HConfig} {env : Env} {me : Me} {w : World Q}
    (h : Reached cfg env me true w) (hn : Numeric me.headers) {x : Said} {rest : List Said}
    (hx : w.peer.outbox = x :: rest) :
    ∃ b', step cfg env (me.msg x) w.broker = .ok () b' := by
  obtain ⟨⟨hist, hr⟩, v, hv, hp⟩ := h.inv
  refine C20_partial hr _ ?_
  intro hz
  cases hz with
  | empty hk hd =>
    rcases x with (a | a) | ⟨j, o⟩ | _ | fs
    · cases hd
    · cases hd
    · rcases o with _ | _ | _ <;> cases hd
    · cases hd
    · cases hd
  | evalShort hk => exact absurd (show "workers" = "clients" from hk) (by decide)
  | eval hk => exact absurd (show "workers" = "clients" from hk) (by decide)
  | timer hk => exact absurd (show "workers" = "timer" from hk) (by decide)
  | @init g fs hk hd hnn =>
    rcases x with (_ | a) | ⟨j, o⟩ | _ | fs'
    · simp only [Me.msg, Me.frames, List.cons.injEq, true_and] at hd
      have := headerFrames_prefix (b := []) me.nonempty (.inl rfl)
      rw [List.append_nil] at this
      rw [← hd.2, this] at hnn
      exact hnn hn
    · simp only [Me.msg, Me.frames, List.cons.injEq, true_and] at hd
      rw [← hd.2, headerFrames_prefix me.nonempty (.inr rfl)] at hnn
      exact hnn hn
    · rcases o with _ | _ | _ <;> simp [Me.msg, Me.frames] at hd
    · simp [Me.msg, Me.frames] at hd
    · simp [Me.msg, Me.frames] at hd
  | @done w' j st rest' hk hd hw hi =>
    rcases x with (_ | a) | ⟨j', o⟩ | _ | fs'
    · simp [Me.msg, Me.frames] at hd
    · simp [Me.msg, Me.frames] at hd
    · have hb := hv.believes hr.inv.1
      rw [believes, show w.broker.workers.find? (fun w => w.identity == me.identity) = some w' from hw,
        Option.map_some, hi] at hb
      cases v with
      | none => cases hb
      | some c =>
        have := (hp.report hx).1
        rw [this] at hb
        cases hb
    · simp [Me.msg, Me.frames] at hd
    · simp [Me.msg, Me.frames] at hd

/-- **C76 (partial).** When the report of a patient worker arrives and the broker knows the worker,
    it is about the job the broker thinks the worker is processing. -/
theorem C76_report_partial {cfg : HConfig} {env : Env} {me : Me} {w : World Q}
    (h : Reached cfg env me true w) {j : String} {o : Outcome} {rest : List Said}
    (hx : w.peer.outbox = .done j o :: rest) (hk : Registered me.identity w.broker) :
    believes me.identity w.broker = some (some j) := by
  obtain ⟨⟨hist, hr⟩, v, hv, hp⟩ := h.inv
  rw [hv.believes hr.inv.1]
  cases v with
  | none =>
    have := (hv.none_iff hr.inv.1).2 rfl
    rw [regFind, List.find?_eq_none] at this
    obtain ⟨x, hx, hi⟩ := hk
    exact absurd hi (by simpa using this x hx)
  | some c => rw [(hp.report hx).1]

/-- **C76 (partial).** A patient worker is idle when it receives a job. -/
theorem C76_idle_partial {cfg : HConfig} {env : Env} {me : Me} {w : World Q}
    (h : Reached cfg env me true w) {j : String} {x : List String} {rest : List (List String)}
    (hx : w.peer.inbox = ("eval" :: j :: x) :: rest) : w.peer.job = none := by
  obtain ⟨⟨hist, hr⟩, v, hv, hp⟩ := h.inv
  have e : inEvals (("eval" :: j :: x) :: rest) = j :: inEvals rest := rfl
  cases hj : w.peer.job with
  | none => rfl
  | some j' =>
    exfalso
    cases v with
    | some c =>
      obtain ⟨_, _, k⟩ := hp.known c rfl
      have := congrArg List.length k
      rw [hx, e, hj, List.length_append, List.length_append, List.length_cons] at this
      have hc : c.toList.length ≤ 1 := by cases c <;> simp
      have hl : (some j').toList.length = 1 := rfl
      omega
    | none =>
      cases hp.unknown rfl with
      | hello ho hA hB hAp hi he hjj => rw [hx, e] at he; cases he
      | @asked X Y f hi hf hX hY hYe ho hop hjj =>
        cases X with
        | nil =>
          rw [hx] at hi
          simp at hi
          rw [← hi.1] at hf
          simp [isIntro] at hf
        | cons f' X =>
          rw [hx] at hi
          simp at hi
          rw [← hi.1, hj] at hjj
          have e' : inEvals (("eval" :: j :: x) :: X) = j :: inEvals X := rfl
          rw [e'] at hjj
          simp at hjj
      | lost ho hi hjj =>
        rw [hx, e, hj] at hjj
        simp at hjj

/-- **C76 (partial).** When nothing is under way between a patient worker and the broker and the
    broker knows the worker, they agree about the job the worker is processing. -/
theorem C76_agree_partial {cfg : HConfig} {env : Env} {me : Me} {w : World Q}
    (h : Reached cfg env me true w) (ho : w.peer.outbox = []) (hi : w.peer.inbox = [])
    (hk : Registered me.identity w.broker) :
    believes me.identity w.broker = some w.peer.job := by
  obtain ⟨⟨hist, hr⟩, v, hv, hp⟩ := h.inv
  rw [hv.believes hr.inv.1]
  cases v with
  | none =>
    have := (hv.none_iff hr.inv.1).2 rfl
    rw [regFind, List.find?_eq_none] at this
    obtain ⟨x, hx, hi⟩ := hk
    exact absurd hi (by simpa using this x hx)
  | some c =>
    obtain ⟨_, _, k⟩ := hp.known c rfl
    rw [ho, hi] at k
    cases hj : w.peer.job <;> cases c <;> simp_all [outDones, inEvals]

/-- **C76 (partial).** The broker never registers a patient worker twice. -/
theorem C76_once_partial {cfg : HConfig} {env : Env} {me : Me} {w : World Q}
    (h : Reached cfg env me true w) :
    (w.broker.workers.filter (fun x => x.identity == me.identity)).length ≤ 1 := by
  obtain ⟨⟨hist, hr⟩, v, hv, hp⟩ := h.inv
  have e : ((w.broker.workers.filter (fun x => x.identity == me.identity) : List Worker) :
      Multiset Worker) = (ls w.broker 0).reg.filter (fun x => x.identity = me.identity) := by
    rw [show (ls w.broker 0).reg = (w.broker.workers : Multiset Worker) from hr.inv.1.reg_eq.symm,
      Multiset.filter_coe]
    congr 2
  have := congrArg Multiset.card e
  rw [Multiset.coe_card] at this
  rw [this]
  cases v with
  | none => rw [show (ls w.broker 0).reg.filter _ = 0 from hv]; simp
  | some c => obtain ⟨x, hx, _⟩ := hv; rw [hx]; simp

/-- **C76, deployments (partial).** If all workers follow the protocol patiently and declare numbers
    of threads properly, and clients and timer send proper messages, the broker never fails. -/
theorem C76_deployment_partial {cfg : HConfig} {env : Env} {mes : String → Me}
    (hid : ∀ i, (mes i).identity = i) (hn : ∀ i, Numeric (mes i).headers) {hist : List (Tr Q)}
    {d : Deployment Q} (h : Deployed cfg env mes true hist d) {m : Msg}
    (hm : Proper m ∨ ∃ i x rest, (d.peers i).outbox = x :: rest ∧ m = (mes i).msg x) :
    ∃ b', step cfg env m d.broker = .ok () b' := by
  rcases hm with ⟨h1, h2, h3⟩ | ⟨i, x, rest, hx, rfl⟩
  · obtain ⟨⟨_, hr⟩, _⟩ := (h.world hid "").inv
    refine C20_partial hr m ?_
    intro hz
    cases hz with
    | empty hk hd =>
      rcases hk with hk | hk
      · exact h1 hk
      · exact (h2 hk).1 hd
    | init hk => exact h1 hk
    | done hk => exact h1 hk
    | evalShort hk hd =>
      have hw : WellFormedEval m.data := by
        refine (h2 hk).2 ?_
        rcases hd with hd | ⟨j, hd⟩ <;> rw [hd] <;> rfl
      obtain ⟨j, fs, hf, he, _⟩ := hw
      rcases hd with hd | ⟨j', hd⟩
      · rw [hd] at hf; simp at hf
      · rw [hd] at hf
        simp at hf
        rw [hf.2] at he
        simp at he
    | @eval j fs hk hd hdel hnn hf hw =>
      obtain ⟨j', fs', hf', he, hnum⟩ := (h2 hk).2 (by rw [hd]; rfl)
      rw [hd] at hf'
      simp at hf'
      rw [hf'.2] at hnn
      exact hnn hnum
    | timer hk hd => exact hd (h3 hk)
  · exact C76_safe_partial (h.world hid i) (hn i) hx

/-! ## Concrete executions -/

/-- What happens next. -/
inductive Act where
  | start
  | read
  | finish (o : Outcome)
  | ping
  | progress (fs : List String)
  | handle
  | other (m : Msg)

/-- Execute an action of the worker. -/
def ownAct (patient : Bool) (p : Peer) : Act → Option Peer
  | .start => if p.started = false then
      some { p with started := true, outbox := p.outbox ++ [.init none] }
    else none
  | .read => match p.inbox with
    | f :: rest => some ({ p with inbox := rest }.react f)
    | [] => none
  | .finish o => match p.job with
    | some j => some { p with job := none, outbox := p.outbox ++ [.done j o] }
    | none => none
  | .ping => if p.started = true ∧ (patient = true → p.waiting = false) then
      some { p with waiting := true, outbox := p.outbox ++ [.ping] }
    else none
  | .progress fs => if p.started = true then
      some { p with outbox := p.outbox ++ [.progress fs] }
    else none
  | _ => none

theorem ownAct_own {patient : Bool} {p p' : Peer} {a : Act} (h : ownAct patient p a = some p') :
    Own patient p p' := by
  cases a with
  | start =>
    simp only [ownAct] at h
    split at h
    · cases h; exact .start (by assumption)
    · cases h
  | read =>
    simp only [ownAct] at h
    split at h
    · cases h; exact .read (by assumption)
    · cases h
  | finish o =>
    simp only [ownAct] at h
    split at h
    · cases h; exact .finish (by assumption) o
    · cases h
  | ping =>
    simp only [ownAct] at h
    split at h
    · rename_i hc; cases h; exact .ping hc.1 hc.2
    · cases h
  | progress fs =>
    simp only [ownAct] at h
    split at h
    · cases h; exact .progress (by assumption) fs
    · cases h
  | handle => cases h
  | other m => cases h

/-- Execute one action. -/
def act (cfg : HConfig) (env : Env) (me : Me) (patient : Bool) (w : World Q) : Act →
    Option (World Q)
  | .handle => match w.peer.outbox with
    | x :: rest => match step cfg env (me.msg x) w.broker with
      | .ok () b' => some ⟨b', { w.peer with
          outbox := rest, inbox := w.peer.inbox ++ forPeer me.identity b'.outs }⟩
      | .error _ _ => none
    | [] => none
  | .other m => if ¬ (m.key = "workers" ∧ m.identity = me.identity) then
      match step cfg env m w.broker with
      | .ok () b' => some ⟨b', { w.peer with inbox := w.peer.inbox ++ forPeer me.identity b'.outs }⟩
      | .error _ _ => none
    else none
  | a => (ownAct patient w.peer a).map (fun p => ⟨w.broker, p⟩)

theorem act_step {cfg : HConfig} {env : Env} {me : Me} {patient : Bool} {w w' : World Q} {a : Act}
    (h : act cfg env me patient w a = some w') : WStep cfg env me patient w w' := by
  obtain ⟨b, p⟩ := w
  have hown : (ownAct patient p a).map (fun p => (⟨b, p⟩ : World Q)) = some w' →
      WStep cfg env me patient ⟨b, p⟩ w' := by
    intro h
    rw [Option.map_eq_some_iff] at h
    obtain ⟨p', h1, rfl⟩ := h
    exact .own (ownAct_own h1)
  cases a with
  | handle =>
    simp only [act] at h
    split at h
    · split at h
      · cases h; exact .handle (by assumption) (by assumption)
      · cases h
    · cases h
  | other m =>
    simp only [act] at h
    split at h
    · split at h
      · cases h; exact .other (by assumption) (by assumption)
      · cases h
    · cases h
  | start => exact hown h
  | read => exact hown h
  | finish o => exact hown h
  | ping => exact hown h
  | progress fs => exact hown h

/-- Execute an action of or with the worker `i`. -/
def dact (cfg : HConfig) (env : Env) (mes : String → Me) (patient : Bool) (d : Deployment Q)
    (i : String) : Act → Option (List (Tr Q) × Deployment Q)
  | .handle => match (d.peers i).outbox with
    | x :: rest => match step cfg env ((mes i).msg x) d.broker with
      | .ok () b' => some ([⟨d.broker, (mes i).msg x, b'⟩], ⟨b', fun k => { d.peers k with
          outbox := if k = i then rest else (d.peers k).outbox,
          inbox := (d.peers k).inbox ++ forPeer k b'.outs }⟩)
      | .error _ _ => none
    | [] => none
  | .other m => if m.key ≠ "workers" then
      match step cfg env m d.broker with
      | .ok () b' => some ([⟨d.broker, m, b'⟩], ⟨b', fun k => { d.peers k with
          inbox := (d.peers k).inbox ++ forPeer k b'.outs }⟩)
      | .error _ _ => none
    else none
  | a => (ownAct patient (d.peers i) a).map
      (fun p => ([], ⟨d.broker, fun k => if k = i then p else d.peers k⟩))

theorem dact_step {cfg : HConfig} {env : Env} {mes : String → Me} {patient : Bool}
    {d : Deployment Q} {r : List (Tr Q) × Deployment Q} {i : String} {a : Act}
    (h : dact cfg env mes patient d i a = some r) : DStep cfg env mes patient d r.1 r.2 := by
  obtain ⟨b, ps⟩ := d
  have hown : (ownAct patient (ps i) a).map
      (fun p => (([], ⟨b, fun k => if k = i then p else ps k⟩) : List (Tr Q) × Deployment Q)) =
        some r → DStep cfg env mes patient ⟨b, ps⟩ r.1 r.2 := by
    intro h
    rw [Option.map_eq_some_iff] at h
    obtain ⟨p', h1, rfl⟩ := h
    exact .own i (ownAct_own h1)
  cases a with
  | handle =>
    simp only [dact] at h
    split at h
    · split at h
      · cases h; exact .handle i (by assumption) (by assumption)
      · cases h
    · cases h
  | other m =>
    simp only [dact] at h
    split at h
    · split at h
      · cases h; exact .other (by assumption) (by assumption)
      · cases h
    · cases h
  | start => exact hown h
  | read => exact hown h
  | finish o => exact hown h
  | ping => exact hown h
  | progress fs => exact hown h

/-- Execute actions in a deployment. -/
def dacts (cfg : HConfig) (env : Env) (mes : String → Me) (patient : Bool) :
    List (String × Act) → List (Tr Q) × Deployment Q → Option (List (Tr Q) × Deployment Q)
  | [], r => some r
  | a :: as, r => (dact cfg env mes patient r.2 a.1 a.2).bind
      (fun n => dacts cfg env mes patient as (r.1 ++ n.1, n.2))

theorem dacts_deployed {cfg : HConfig} {env : Env} {mes : String → Me} {patient : Bool} :
    ∀ {as : List (String × Act)} {r r' : List (Tr Q) × Deployment Q},
      Deployed cfg env mes patient r.1 r.2 →
      dacts cfg env mes patient as r = some r' → Deployed cfg env mes patient r'.1 r'.2
  | [], r, r', h, he => by cases he; exact h
  | a :: as, r, r', h, he => by
    cases hw : dact cfg env mes patient r.2 a.1 a.2 with
    | none => rw [dacts, hw] at he; cases he
    | some n =>
      rw [dacts, hw] at he
      exact dacts_deployed (r := (r.1 ++ n.1, n.2)) (h.step (dact_step hw)) he

theorem exists_deployment {cfg : HConfig} {env : Env} {mes : String → Me} {patient : Bool}
    (as : List (String × Act)) (p : List (Tr Q) → Deployment Q → Bool)
    (hp : (dacts cfg env mes patient as
      (([], ⟨HState.init Q, fun _ => {}⟩) : List (Tr Q) × Deployment Q)).any
        (fun r => p r.1 r.2) = true) :
    ∃ h d, Deployed cfg env mes patient h d ∧ p h d = true := by
  cases he : dacts cfg env mes patient as
      (([], ⟨HState.init Q, fun _ => {}⟩) : List (Tr Q) × Deployment Q) with
  | none => rw [he] at hp; cases hp
  | some r =>
    rw [he] at hp
    exact ⟨r.1, r.2, dacts_deployed (r := ([], _)) .start he, by simpa using hp⟩

/-- Execute actions. -/
def acts (cfg : HConfig) (env : Env) (me : Me) (patient : Bool) : List Act → World Q →
    Option (World Q)
  | [], w => some w
  | a :: as, w => (act cfg env me patient w a).bind (acts cfg env me patient as)

theorem acts_reached {cfg : HConfig} {env : Env} {me : Me} {patient : Bool} :
    ∀ {as : List Act} {w w' : World Q}, Reached cfg env me patient w →
      acts cfg env me patient as w = some w' → Reached cfg env me patient w'
  | [], w, w', h, he => by cases he; exact h
  | a :: as, w, w', h, he => by
    cases hw : act cfg env me patient w a with
    | none => rw [acts, hw] at he; cases he
    | some w1 => rw [acts, hw] at he; exact acts_reached (h.step (act_step hw)) he

theorem exists_world {cfg : HConfig} {env : Env} {me : Me} {patient : Bool} (as : List Act)
    (p : World Q → Bool)
    (hp : (acts cfg env me patient as (⟨HState.init Q, {}⟩ : World Q)).any p = true) :
    ∃ w, Reached cfg env me patient w ∧ p w = true := by
  cases he : acts cfg env me patient as (⟨HState.init Q, {}⟩ : World Q) with
  | none => rw [he] at hp; cases hp
  | some w => rw [he] at hp; exact ⟨w, acts_reached .start he, by simpa using hp⟩

/-- A worker. -/
def me0 : Me := ⟨"w", "g", ["env=c", "threads=4"], by decide⟩

/-- The worker starts and the broker learns about it. -/
def helloActs : List Act := [.start, .handle]
/-- The worker is not heard of for too long. -/
def silentActs : List Act := List.replicate 4 (.other (tick "1001"))
/-- A client submits a job. -/
def jobActs (j : String) : List Act := [.other (fromC "c" ["eval", j, "env=c", "", "url"])]

/-- A patient worker gets a job, works on it while the broker loses sight of it, is asked to introduce
    itself again, and reports. -/
def patientActs : List Act :=
  helloActs ++ [.ping, .handle, .read] ++ jobActs "J" ++ [.read, .progress ["J", "half"], .handle] ++
    silentActs ++ [.ping, .handle, .read, .handle]

/-- The broker loses sight of the worker, two pings make it ask twice; one introduction is handled at
    once, the other one after the broker gave the worker a job and lost sight of it again. -/
def impatientActs : List Act :=
  helloActs ++ [.ping, .handle] ++ silentActs ++ [.ping, .ping, .handle, .handle, .read, .read,
    .handle] ++ jobActs "J" ++ [.ping, .handle, .read] ++ silentActs ++ [.handle, .read]

/-- The worker of the example speaks properly. -/
theorem me0_numeric : Numeric me0.headers := by
  intro f hf hk
  simp only [me0, List.mem_cons, List.not_mem_nil, or_false] at hf
  rcases hf with rfl | rfl
  · exact absurd hk (by decide)
  · exact ⟨4, [], [], ['4'], [], by decide, by simp, .inl rfl, by simp, by decide, by simp, by decide,
      by decide⟩

/-- Workers that differ only in their identity. -/
def mes0 (i : String) : Me := ⟨i, "g", ["env=c", "threads=4"], by decide⟩

/-- Two workers at work, both reports under way. -/
example : ∃ hist d, Deployed cfg0 env0 mes0 true hist (d : Deployment Multi) ∧
    (∀ i, (mes0 i).identity = i) ∧ (∀ i, Numeric (mes0 i).headers) ∧
    (d.peers "v").outbox = [.done "K" .ok] ∧ (d.peers "w").outbox = [.done "J" .ok] := by
  obtain ⟨hist, d, h, hp⟩ := exists_deployment (Q := Multi) (cfg := cfg0) (env := env0) (mes := mes0)
    (patient := true) [("v", .start), ("w", .start), ("v", .handle), ("w", .handle),
      ("", .other (fromC "c" ["eval", "J", "env=c", "", "url"])),
      ("", .other (fromC "c" ["eval", "K", "env=c", "", "url"])),
      ("v", .read), ("w", .read), ("w", .finish .ok), ("v", .finish .ok)]
    (fun _ d => decide ((d.peers "v").outbox = [.done "K" .ok] ∧ (d.peers "w").outbox = [.done "J" .ok]))
    (by decide +kernel)
  obtain ⟨h1, h2⟩ := of_decide_eq_true hp
  exact ⟨hist, d, h, fun _ => rfl, fun _ => me0_numeric, h1, h2⟩

/-- A report under way to a broker that knows the worker again. -/
example : ∃ w, Reached cfg0 env0 me0 true (w : World Multi) ∧ Numeric me0.headers ∧
    w.peer.outbox = [.done "J" .ok] ∧ Registered me0.identity w.broker := by
  obtain ⟨w, h, hp⟩ := exists_world (Q := Multi) (cfg := cfg0) (env := env0) (me := me0)
    (patient := true) (patientActs ++ [.finish .ok])
    (fun w => decide (w.peer.outbox = [.done "J" .ok]) &&
      w.broker.workers.any (fun x => x.identity == "w")) (by decide +kernel)
  simp only [Bool.and_eq_true, decide_eq_true_eq, List.any_eq_true, beq_iff_eq] at hp
  exact ⟨w, h, me0_numeric, hp.1, hp.2⟩

/-- The report under way while the broker does not know the worker. -/
example : ∃ w, Reached cfg0 env0 me0 true (w : World Single) ∧
    w.peer.outbox = [.done "J" (.internal "x")] ∧ believes "w" w.broker = none := by
  obtain ⟨w, h, hp⟩ := exists_world (Q := Single) (cfg := cfg0) (env := env0) (me := me0)
    (patient := true) (helloActs ++ [.ping, .handle, .read] ++ jobActs "J" ++ [.read] ++ silentActs ++
      [.finish (.internal "x")])
    (fun w => decide (w.peer.outbox = [.done "J" (.internal "x")] ∧ believes "w" w.broker = none))
    (by decide +kernel)
  exact ⟨w, h, of_decide_eq_true hp⟩

/-- A job under way to the worker. -/
example : ∃ w x, Reached cfg0 env0 me0 true (w : World Multi) ∧
    w.peer.inbox = [["pong"], "eval" :: "J" :: x] := by
  obtain ⟨w, h, hp⟩ := exists_world (Q := Multi) (cfg := cfg0) (env := env0) (me := me0)
    (patient := true) (helloActs ++ [.ping, .handle] ++ jobActs "J")
    (fun w => decide (w.peer.inbox = [["pong"], ["eval", "J", "url"]])) (by decide +kernel)
  exact ⟨w, _, h, of_decide_eq_true hp⟩

/-- Agreement about a job after the broker lost sight of the worker. -/
example : ∃ w, Reached cfg0 env0 me0 true (w : World Multi) ∧ w.peer.outbox = [] ∧
    w.peer.inbox = [] ∧ Registered me0.identity w.broker ∧ w.peer.job = some "J" := by
  obtain ⟨w, h, hp⟩ := exists_world (Q := Multi) (cfg := cfg0) (env := env0) (me := me0)
    (patient := true) patientActs
    (fun w => decide (w.peer.outbox = [] ∧ w.peer.inbox = [] ∧ w.peer.job = some "J") &&
      w.broker.workers.any (fun x => x.identity == "w")) (by decide +kernel)
  simp only [Bool.and_eq_true, decide_eq_true_eq, List.any_eq_true, beq_iff_eq] at hp
  exact ⟨w, h, hp.1.1, hp.1.2.1, hp.2, hp.1.2.2⟩

/-- **C76 is false without patience:** a worker that pings again before it got an answer can make the
    broker dereference a null pointer, although it follows the protocol otherwise. -/
theorem C76_refuted : ∃ (w : World Multi) (x : Said) (rest : List Said),
    Reached cfg0 env0 me0 false w ∧ Numeric me0.headers ∧ w.peer.outbox = x :: rest ∧
      ∃ b', step cfg0 env0 (me0.msg x) w.broker = .error (.ub .nullDeref) b' := by
  obtain ⟨w, h, hp⟩ := exists_world (Q := Multi) (cfg := cfg0) (env := env0) (me := me0)
    (patient := false) (impatientActs ++ [.finish .ok])
    (fun w => decide (w.peer.outbox = [.done "J" .ok]) &&
      match step cfg0 env0 (me0.msg (.done "J" .ok)) w.broker with
      | .error (.ub .nullDeref) _ => true
      | _ => false) (by decide +kernel)
  simp only [Bool.and_eq_true, decide_eq_true_eq] at hp
  refine ⟨w, _, [], h, me0_numeric, hp.1, ?_⟩
  have := hp.2
  split at this
  · exact ⟨_, by assumption⟩
  · cases this

/-- **C76 is false without patience:** the broker may send a worker a job while it processes another
    one, and believe that the worker is idle. -/
theorem C76_refuted_idle :
    (∃ w : World Multi, Reached cfg0 env0 me0 false w ∧ w.peer.outbox = [] ∧
      w.peer.inbox = [] ∧ w.peer.job = some "J" ∧ believes "w" w.broker = some none) ∧
    ∃ (w : World Multi) (x : List String), Reached cfg0 env0 me0 false w ∧
      w.peer.inbox = ["eval" :: "K" :: x] ∧ w.peer.job = some "J" := by
  constructor
  · obtain ⟨w, h, hp⟩ := exists_world (Q := Multi) (cfg := cfg0) (env := env0) (me := me0)
      (patient := false) (impatientActs ++ [.read])
      (fun w => decide (w.peer.outbox = [] ∧ w.peer.inbox = [] ∧ w.peer.job = some "J" ∧
        believes "w" w.broker = some none)) (by decide +kernel)
    exact ⟨w, h, of_decide_eq_true hp⟩
  · obtain ⟨w, h, hp⟩ := exists_world (Q := Multi) (cfg := cfg0) (env := env0) (me := me0)
      (patient := false) (impatientActs ++ [.read] ++ jobActs "K")
      (fun w => decide (w.peer.inbox = [["eval", "K", "url"]] ∧ w.peer.job = some "J"))
      (by decide +kernel)
    obtain ⟨h1, h2⟩ := of_decide_eq_true hp
    exact ⟨w, _, h, h1, h2⟩

end Broker

