import Verif.Proof.Restart
import Verif.Props.Peer
import Verif.Props.Workers

/-!
# Workers that outlive the broker (C104)
-/

set_option linter.unusedSectionVars false

namespace Broker

open QueueManager LawfulQM Spec

variable {Q : Type} [QueueManager Q] [LawfulQM Q]

/-- **C104 (partial).** A patient worker brings no broker process down: whatever the rest of the
    world does, however often the broker is started anew and whatever gets lost, the broker handles
    every message of the worker normally. -/
theorem C104_safe_partial {me : Me} {lossy : Bool} {cfg : HConfig} {env : Env} {os : List Msg}
    {w : World Q} (h : Endured me lossy false cfg env os w) (hn : Numeric me.headers) {x : Said} {rest : List Said}
    (hx : w.peer.outbox = x :: rest) :
    ∃ b', step cfg env (me.msg x) w.broker = .ok () b' := by
  obtain ⟨⟨hist, hr⟩, v, hv, hp⟩ := h.tinv
  refine C20_partial hr _ ?_
  intro hz
  cases hz with
  | empty hk hd =>
    rcases x with (a | a) | ⟨j, o⟩ | _ | fs
    · cases hd
    · cases hd
    · rcases o with _ | _ | _ <;> cases hd
    · cases hd
    · cases hd
  | evalShort hk => exact absurd (show "workers" = "clients" from hk) (by decide)
  | eval hk => exact absurd (show "workers" = "clients" from hk) (by decide)
  | timer hk => exact absurd (show "workers" = "timer" from hk) (by decide)
  | @init g fs hk hd hnn =>
    rcases x with (_ | a) | ⟨j, o⟩ | _ | fs'
    · simp only [Me.msg, Me.frames, List.cons.injEq, true_and] at hd
      have := headerFrames_prefix (b := []) me.nonempty (.inl rfl)
      rw [List.append_nil] at this
      rw [← hd.2, this] at hnn
      exact hnn hn
    · simp only [Me.msg, Me.frames, List.cons.injEq, true_and] at hd
      rw [← hd.2, headerFrames_prefix me.nonempty (.inr rfl)] at hnn
      exact hnn hn
    · rcases o with _ | _ | _ <;> simp [Me.msg, Me.frames] at hd
    · simp [Me.msg, Me.frames] at hd
    · simp [Me.msg, Me.frames] at hd
  | @done w' j st rest' hk hd hw hi =>
    rcases x with (_ | a) | ⟨j', o⟩ | _ | fs'
    · simp [Me.msg, Me.frames] at hd
    · simp [Me.msg, Me.frames] at hd
    · have hb := hv.believes hr.inv.1
      rw [believes, show w.broker.workers.find? (fun w => w.identity == me.identity) = some w' from hw,
        Option.map_some, hi] at hb
      cases v with
      | none => cases hb
      | some c =>
        have := (hp.report hx).1
        rw [this] at hb
        cases hb
    · simp [Me.msg, Me.frames] at hd
    · simp [Me.msg, Me.frames] at hd

/-- **C104 (partial).** When the report of a patient worker arrives at a broker that knows the worker,
    it is about the job that broker thinks the worker is processing. -/
theorem C104_report_partial {me : Me} {lossy : Bool} {cfg : HConfig} {env : Env} {os : List Msg}
    {w : World Q} (h : Endured me lossy false cfg env os w) {j : String} {o : Outcome} {rest : List Said}
    (hx : w.peer.outbox = .done j o :: rest) (hk : Registered me.identity w.broker) :
    believes me.identity w.broker = some (some j) := by
  obtain ⟨⟨hist, hr⟩, v, hv, hp⟩ := h.tinv
  rw [hv.believes hr.inv.1]
  cases v with
  | none =>
    have := (hv.none_iff hr.inv.1).2 rfl
    rw [regFind, List.find?_eq_none] at this
    obtain ⟨x, hx, hi⟩ := hk
    exact absurd hi (by simpa using this x hx)
  | some c => rw [(hp.report hx).1]

/-- **C104 (partial).** A patient worker is idle when it receives a job. -/
theorem C104_idle_partial {me : Me} {lossy : Bool} {cfg : HConfig} {env : Env} {os : List Msg}
    {w : World Q} (h : Endured me lossy false cfg env os w) {j : String} {x : List String} {rest : List (List String)}
    (hx : w.peer.inbox = ("eval" :: j :: x) :: rest) : w.peer.job = none := by
  obtain ⟨⟨hist, hr⟩, v, hv, hp⟩ := h.tinv
  have e : inEvals (("eval" :: j :: x) :: rest) = j :: inEvals rest := rfl
  cases hj : w.peer.job with
  | none => rfl
  | some j' =>
    exfalso
    cases v with
    | some c =>
      obtain ⟨_, _, k⟩ := hp.known c rfl
      have := k.length_le
      rw [hx, e, hj, List.length_append, List.length_append, List.length_cons] at this
      have hc : c.toList.length ≤ 1 := by cases c <;> simp
      have hl : (some j').toList.length = 1 := rfl
      omega
    | none =>
      cases hp.unknown rfl with
      | hello ho hA hB hAp hi he hjj => rw [hx, e] at he; cases he
      | @asked X Y f hi hf hX hY hYe ho hop hjj =>
        cases X with
        | nil =>
          rw [hx] at hi
          simp at hi
          rw [← hi.1] at hf
          simp [isIntro] at hf
        | cons f' X =>
          rw [hx] at hi
          simp at hi
          rw [← hi.1, hj] at hjj
          have e' : inEvals (("eval" :: j :: x) :: X) = j :: inEvals X := rfl
          rw [e'] at hjj
          simp at hjj
      | lost ho hi hjj =>
        rw [hx, e, hj] at hjj
        simp at hjj

/-- **C104 (partial).** When nothing is under way between a patient worker and the broker and the
    broker knows the worker, they agree about the job the worker is processing. -/
theorem C104_agree_partial {me : Me} {cfg : HConfig} {env : Env} {os : List Msg}
    {w : World Q} (h : Endured me false false cfg env os w) (ho : w.peer.outbox = []) (hi : w.peer.inbox = [])
    (hk : Registered me.identity w.broker) :
    believes me.identity w.broker = some w.peer.job := by
  obtain ⟨⟨hist, hr⟩, v, hv, hp⟩ := h.winv
  rw [hv.believes hr.inv.1]
  cases v with
  | none =>
    have := (hv.none_iff hr.inv.1).2 rfl
    rw [regFind, List.find?_eq_none] at this
    obtain ⟨x, hx, hi⟩ := hk
    exact absurd hi (by simpa using this x hx)
  | some c =>
    obtain ⟨_, _, k⟩ := hp.known c rfl
    rw [ho, hi] at k
    cases hj : w.peer.job <;> cases c <;> simp_all [outDones, inEvals]

/-- **C104 (partial).** If messages got lost, the broker may believe that the worker is still busy, but
    never the other way round: the job the worker is processing is the job the broker thinks it is
    processing. -/
theorem C104_behind_partial {me : Me} {lossy : Bool} {cfg : HConfig} {env : Env} {os : List Msg}
    {w : World Q} (h : Endured me lossy false cfg env os w) {j : String} (hj : w.peer.job = some j)
    (hk : Registered me.identity w.broker) : believes me.identity w.broker = some (some j) := by
  obtain ⟨⟨hist, hr⟩, v, hv, hp⟩ := h.tinv
  rw [hv.believes hr.inv.1]
  cases v with
  | none =>
    have := (hv.none_iff hr.inv.1).2 rfl
    rw [regFind, List.find?_eq_none] at this
    obtain ⟨x, hx, hi⟩ := hk
    exact absurd hi (by simpa using this x hx)
  | some c =>
    obtain ⟨_, _, k⟩ := hp.known c rfl
    have hm : j ∈ c.toList := k.subset (by simp [hj])
    cases c with
    | none => cases hm
    | some j' =>
      have : j = j' := by simpa using hm
      rw [this]

/-- **C104 (partial).** The report of a patient worker that arrives at a broker that knows the worker
    reaches the frontend, no matter which broker process the job was submitted to. -/
theorem C104_reported_partial {me : Me} {lossy : Bool} {cfg : HConfig} {env : Env} {os : List Msg}
    {w : World Q} (h : Endured me lossy false cfg env os w) {j : String} {rest : List Said}
    (hx : w.peer.outbox = .done j .ok :: rest) (hk : Registered me.identity w.broker) :
    ∃ b' more, step cfg env (me.msg (.done j .ok)) w.broker = .ok () b' ∧
      b'.outs = ⟨"status_notifier", "", ["type", "job-status", "id", j, "status", "OK"]⟩ :: more ∧
      more.length ≤ 1 ∧ ∀ o ∈ more, isEvalTo me.identity o = true := by
  have hb := C104_report_partial h hx hk
  obtain ⟨⟨hist, hr⟩, -⟩ := h.tinv
  unfold believes at hb
  obtain ⟨x, hf, hc⟩ := Option.map_eq_some_iff.1 hb
  obtain ⟨r, hc', rfl⟩ := Option.map_eq_some_iff.1 hc
  obtain ⟨b', more, h1, _, h2⟩ := C30_done_ok (cfg := cfg) (env := env)
    (m := me.msg (.done r.jobId .ok)) hr rfl rfl ⟨hf, hc'⟩
  exact ⟨b', more, h1, h2⟩

/-- **C104 (partial).** The broker never registers a patient worker twice. -/
theorem C104_once_partial {me : Me} {lossy : Bool} {cfg : HConfig} {env : Env} {os : List Msg}
    {w : World Q} (h : Endured me lossy false cfg env os w) :
    (w.broker.workers.filter (fun x => x.identity == me.identity)).length ≤ 1 := by
  obtain ⟨⟨hist, hr⟩, v, hv, hp⟩ := h.tinv
  have e : ((w.broker.workers.filter (fun x => x.identity == me.identity) : List Worker) :
      Multiset Worker) = (ls w.broker 0).reg.filter (fun x => x.identity = me.identity) := by
    rw [show (ls w.broker 0).reg = (w.broker.workers : Multiset Worker) from hr.inv.1.reg_eq.symm,
      Multiset.filter_coe]
    congr 2
  have := congrArg Multiset.card e
  rw [Multiset.coe_card] at this
  rw [this]
  cases v with
  | none => rw [show (ls w.broker 0).reg.filter _ = 0 from hv]; simp
  | some c => obtain ⟨x, hx, _⟩ := hv; rw [hx]; simp

/-- **C104, lost jobs.** A broker process that was not sent the job by a client and that no worker
    introduced itself to with the job never tells the frontend about it, whatever the workers
    report. -/
theorem C104_unaware {cfg : HConfig} {env : Env} {h : List (Tr Q)} {s : HState Q}
    (hr : Run cfg env h s) {j : String} (ha : ∀ t ∈ h, accepts j t = false)
    (hi : ∀ t ∈ h, adopts j t = false) : ∀ m ∈ emitted h, isFinal j m = false := by
  have := C01_job_accounting hr j
  rw [List.countP_eq_zero.2 (by simpa using ha), List.countP_eq_zero.2 (by simpa using hi)] at this
  have h0 : (emitted h).countP (isFinal j) = 0 := by omega
  simpa using List.countP_eq_zero.1 h0

/-- **C104, deployments (partial).** If all workers follow the protocol patiently and declare numbers
    of threads properly, and clients and timer send proper messages, no broker process fails, however
    often the broker is started anew and whatever gets lost. -/
theorem C104_deployment_partial {mes : String → Me}
    (hid : ∀ i, (mes i).identity = i) (hn : ∀ i, Numeric (mes i).headers) {lossy : Bool}
    {cfg : HConfig} {env : Env} {d : Deployment Q} (h : Outlived mes lossy cfg env d) {m : Msg}
    (hm : Proper m ∨ ∃ i x rest, (d.peers i).outbox = x :: rest ∧ m = (mes i).msg x) :
    ∃ b', step cfg env m d.broker = .ok () b' := by
  rcases hm with ⟨h1, h2, h3⟩ | ⟨i, x, rest, hx, rfl⟩
  · obtain ⟨_, hw⟩ := h.world hid ""
    obtain ⟨⟨_, hr⟩, _⟩ := hw.tinv
    refine C20_partial hr m ?_
    intro hz
    cases hz with
    | empty hk hd =>
      rcases hk with hk | hk
      · exact h1 hk
      · exact (h2 hk).1 hd
    | init hk => exact h1 hk
    | done hk => exact h1 hk
    | evalShort hk hd =>
      have hw : WellFormedEval m.data := by
        refine (h2 hk).2 ?_
        rcases hd with hd | ⟨j, hd⟩ <;> rw [hd] <;> rfl
      obtain ⟨j, fs, hf, he, _⟩ := hw
      rcases hd with hd | ⟨j', hd⟩
      · rw [hd] at hf; simp at hf
      · rw [hd] at hf
        simp at hf
        rw [hf.2] at he
        simp at he
    | @eval j fs hk hd hdel hnn hf hw =>
      obtain ⟨j', fs', hf', he, hnum⟩ := (h2 hk).2 (by rw [hd]; rfl)
      rw [hd] at hf'
      simp at hf'
      rw [hf'.2] at hnn
      exact hnn hnum
    | timer hk hd => exact hd (h3 hk)
  · obtain ⟨_, hw⟩ := h.world hid i
    exact C104_safe_partial hw (hn i) hx


/-! ## Concrete executions -/

/-- What happens next. -/
inductive FAct where
  | act (a : Act)
  | restart
  /-- a message from the worker gets lost -/
  | loseOut (n : Nat)
  /-- a message to the worker gets lost -/
  | loseIn (n : Nat)
  | reconnect
  | die

/-- Execute one action. -/
def fact (cfg : HConfig) (env : Env) (me : Me) (lossy mortal : Bool) (r : List Msg × World Q) :
    FAct → Option (List Msg × World Q)
  | .act .handle => (act cfg env me true r.2 .handle).map (fun w => (r.1 ++ w.broker.outs, w))
  | .act (.other m) => (act cfg env me true r.2 (.other m)).map (fun w => (r.1 ++ w.broker.outs, w))
  | .act a => (ownAct true r.2.peer a).map (fun p => (r.1, ⟨r.2.broker, p⟩))
  | .restart => some (r.1, ⟨HState.init Q, r.2.peer⟩)
  | .loseOut n => if lossy = true then
      some (r.1, ⟨r.2.broker, { r.2.peer with outbox := r.2.peer.outbox.eraseIdx n }⟩)
    else none
  | .loseIn n => if lossy = true then
      some (r.1, ⟨r.2.broker, { r.2.peer with inbox := r.2.peer.inbox.eraseIdx n }⟩)
    else none
  | .reconnect => if lossy = true then
      some (r.1, ⟨r.2.broker, { r.2.peer with outbox := [], inbox := [], waiting := false }⟩)
    else none
  | .die => if mortal = true then some (r.1, ⟨r.2.broker, {}⟩) else none

theorem fact_endured {cfg : HConfig} {env : Env} {me : Me} {lossy mortal : Bool}
    {r r' : List Msg × World Q} {a : FAct} (h : Endured me lossy mortal cfg env r.1 r.2)
    (he : fact cfg env me lossy mortal r a = some r') :
    Endured me lossy mortal cfg env r'.1 r'.2 := by
  obtain ⟨os, b, p⟩ := r
  have hown : ∀ a, (ownAct true p a).map (fun p => ((os, ⟨b, p⟩) : List Msg × World Q)) = some r' →
      Endured me lossy mortal cfg env r'.1 r'.2 := by
    intro a h'
    rw [Option.map_eq_some_iff] at h'
    obtain ⟨p', h1, rfl⟩ := h'
    exact h.own (ownAct_own h1)
  cases a with
  | act a =>
    cases a with
    | handle =>
      obtain ⟨w, hw, rfl⟩ := Option.map_eq_some_iff.1 he
      simp only [act] at hw
      split at hw
      · split at hw
        · cases hw; exact h.handle (by assumption) (by assumption)
        · cases hw
      · cases hw
    | other m =>
      obtain ⟨w, hw, rfl⟩ := Option.map_eq_some_iff.1 he
      simp only [act] at hw
      split at hw
      · split at hw
        · cases hw; exact h.other (by assumption) (by assumption)
        · cases hw
      · cases hw
    | start => exact hown _ he
    | read => exact hown _ he
    | finish o => exact hown _ he
    | ping => exact hown _ he
    | progress fs => exact hown _ he
  | restart => cases he; exact h.restart cfg env
  | loseOut n =>
    simp only [fact] at he
    split at he
    · cases he; exact h.lose (by assumption) (List.eraseIdx_sublist _ _) (List.Sublist.refl _)
    · cases he
  | loseIn n =>
    simp only [fact] at he
    split at he
    · cases he; exact h.lose (by assumption) (List.Sublist.refl _) (List.eraseIdx_sublist _ _)
    · cases he
  | reconnect =>
    simp only [fact] at he
    split at he
    · cases he; exact h.reconnect (by assumption)
    · cases he
  | die =>
    simp only [fact] at he
    split at he
    · cases he; exact h.die (by assumption)
    · cases he

/-- Execute actions. -/
def facts (cfg : HConfig) (env : Env) (me : Me) (lossy mortal : Bool) :
    List FAct → List Msg × World Q → Option (List Msg × World Q)
  | [], r => some r
  | a :: as, r => (fact cfg env me lossy mortal r a).bind (facts cfg env me lossy mortal as)

theorem facts_endured {cfg : HConfig} {env : Env} {me : Me} {lossy mortal : Bool} :
    ∀ {as : List FAct} {r r' : List Msg × World Q}, Endured me lossy mortal cfg env r.1 r.2 →
      facts cfg env me lossy mortal as r = some r' → Endured me lossy mortal cfg env r'.1 r'.2
  | [], r, r', h, he => by cases he; exact h
  | a :: as, r, r', h, he => by
    cases hw : fact cfg env me lossy mortal r a with
    | none => rw [facts, hw] at he; cases he
    | some r1 => rw [facts, hw] at he; exact facts_endured (fact_endured h hw) he

theorem exists_endured {cfg : HConfig} {env : Env} {me : Me} {lossy mortal : Bool}
    (as : List FAct) (p : List Msg → World Q → Bool)
    (hp : (facts cfg env me lossy mortal as (([], ⟨HState.init Q, {}⟩) : List Msg × World Q)).any
      (fun r => p r.1 r.2) = true) :
    ∃ os w, Endured me lossy mortal cfg env os w ∧ p os w = true := by
  cases he : facts cfg env me lossy mortal as (([], ⟨HState.init Q, {}⟩) : List Msg × World Q) with
  | none => rw [he] at hp; cases hp
  | some r =>
    rw [he] at hp
    exact ⟨r.1, r.2, facts_endured (r := ([], _)) (.start _ _) he, by simpa using hp⟩

/-- The worker gets the job `J` and starts it. -/
def atWorkActs : List FAct := (helloActs ++ jobActs "J" ++ [Act.read]).map .act

/-- The worker notices that the broker was started anew, introduces itself, and reports. -/
def adoptedActs : List FAct :=
  atWorkActs ++ [.restart] ++ ([Act.ping, .handle, .read, .handle, .finish .ok].map .act)

/-- The worker reports before it learns that the broker was started anew. -/
def forgottenActs : List FAct := atWorkActs ++ [.act (.finish .ok), .restart, .act .handle]

/-- The report gets lost. -/
def lostReportActs : List FAct := atWorkActs ++ [.act (.finish .ok), .loseOut 0]

/-- The worker is started anew; while its introduction is under way the broker sends it a job and loses
    sight of it. -/
def rebornActs : List FAct :=
  ((helloActs ++ [Act.ping, .handle, .read]).map .act) ++ [.die, .act .start] ++ ((jobActs "J" ++ silentActs ++
    [Act.handle, .read, .finish .ok]).map .act)

/-- The report of a job another broker process handed out, under way to a broker that knows the
    worker. -/
example : ∃ os w, Endured me0 false false cfg0 env0 os (w : World Multi) ∧ Numeric me0.headers ∧
    w.peer.outbox = [.done "J" .ok] ∧ Registered me0.identity w.broker := by
  obtain ⟨os, w, h, hp⟩ := exists_endured (Q := Multi) (cfg := cfg0) (env := env0) (me := me0)
    (lossy := false) (mortal := false) adoptedActs
    (fun _ w => decide (w.peer.outbox = [.done "J" .ok]) &&
      w.broker.workers.any (fun x => x.identity == "w")) (by decide +kernel)
  simp only [Bool.and_eq_true, decide_eq_true_eq, List.any_eq_true, beq_iff_eq] at hp
  exact ⟨os, w, h, me0_numeric, hp.1, hp.2⟩

/-- A worker that is processing a job another broker process handed out, nothing under way. -/
example : ∃ os w, Endured me0 false false cfg0 env0 os (w : World Single) ∧ w.peer.outbox = [] ∧
    w.peer.inbox = [] ∧ Registered me0.identity w.broker ∧ w.peer.job = some "J" := by
  obtain ⟨os, w, h, hp⟩ := exists_endured (Q := Single) (cfg := cfg0) (env := env0) (me := me0)
    (lossy := false) (mortal := false) (atWorkActs ++ [.restart] ++
      ([Act.ping, .handle, .read, .handle, .read].map .act))
    (fun _ w => decide (w.peer.outbox = [] ∧ w.peer.inbox = [] ∧ w.peer.job = some "J") &&
      w.broker.workers.any (fun x => x.identity == "w")) (by decide +kernel)
  simp only [Bool.and_eq_true, decide_eq_true_eq, List.any_eq_true, beq_iff_eq] at hp
  exact ⟨os, w, h, hp.1.1, hp.1.2.1, hp.2, hp.1.2.2⟩

/-- A job under way to a worker whose answer to a ping got lost and who set up its connection anew. -/
example : ∃ os w x, Endured me0 true false cfg0 env0 os (w : World Multi) ∧
    w.peer.inbox = ["eval" :: "J" :: x] := by
  obtain ⟨os, w, h, hp⟩ := exists_endured (Q := Multi) (cfg := cfg0) (env := env0) (me := me0)
    (lossy := true) (mortal := false) ((helloActs ++ [Act.ping, .handle]).map .act ++
      [.loseIn 0, .reconnect] ++ (jobActs "J").map .act)
    (fun _ w => decide (w.peer.inbox = [["eval", "J", "url"]])) (by decide +kernel)
  exact ⟨os, w, _, h, of_decide_eq_true hp⟩

/-- An introduction under way while the broker is started anew. -/
example : ∃ d, Outlived mes0 false cfg0 env0 (d : Deployment Multi) ∧
    (∀ i, (mes0 i).identity = i) ∧ (∀ i, Numeric (mes0 i).headers) ∧
    ∃ x rest, (d.peers "w").outbox = x :: rest := by
  refine ⟨_, ((Outlived.start (Q := Multi) (mes := mes0) (lossy := false) cfg0 env0).own "w"
    (.start rfl)).restart cfg0 env0, fun _ => rfl, fun _ => me0_numeric, _, _, rfl⟩

/-- **C104 is false as it stands:** a worker that reports a job before it learns that the broker was
    started anew is ignored; nothing gets lost on the wire, and no broker process ever tells the
    frontend about the job (`C104_unaware`), which was accepted. -/
theorem C104_refuted_forgotten : ∃ (os : List Msg) (w : World Multi),
    Endured me0 false false cfg0 env0 os w ∧ ⟨"clients", "c", ["accept"]⟩ ∈ os ∧
      w.peer.outbox = [] ∧ w.peer.inbox = [] ∧ w.peer.job = none ∧ w.broker.workers = [] ∧
      ∀ m ∈ os, isFinal "J" m = false := by
  obtain ⟨os, w, h, hp⟩ := exists_endured (Q := Multi) (cfg := cfg0) (env := env0) (me := me0)
    (lossy := false) (mortal := false) forgottenActs
    (fun os w => decide (⟨"clients", "c", ["accept"]⟩ ∈ os ∧ w.peer.outbox = [] ∧
      w.peer.inbox = [] ∧ w.peer.job = none) && w.broker.workers.isEmpty &&
      os.all (fun m => isFinal "J" m == false)) (by decide +kernel)
  simp only [Bool.and_eq_true, decide_eq_true_eq, List.isEmpty_iff, List.all_eq_true, beq_iff_eq] at hp
  exact ⟨os, w, h, hp.1.1.1, hp.1.1.2.1, hp.1.1.2.2.1, hp.1.1.2.2.2, hp.1.2, hp.2⟩

/-- **C104 is false if messages get lost:** the broker thinks the worker is busy with a job the worker
    has finished (for how long see C103). -/
theorem C104_refuted_lost : ∃ (os : List Msg) (w : World Multi),
    Endured me0 true false cfg0 env0 os w ∧ w.peer.outbox = [] ∧ w.peer.inbox = [] ∧
      w.peer.job = none ∧ believes "w" w.broker = some (some "J") := by
  obtain ⟨os, w, h, hp⟩ := exists_endured (Q := Multi) (cfg := cfg0) (env := env0) (me := me0)
    (lossy := true) (mortal := false) lostReportActs
    (fun _ w => decide (w.peer.outbox = [] ∧ w.peer.inbox = [] ∧ w.peer.job = none ∧
      believes "w" w.broker = some (some "J"))) (by decide +kernel)
  exact ⟨os, w, h, of_decide_eq_true hp⟩

/-- **C104 is false if workers are started anew:** the report of such a worker can make the broker
    dereference a null pointer, although nothing else gets lost and the worker is patient. -/
theorem C104_refuted_reborn : ∃ (os : List Msg) (w : World Multi) (x : Said) (rest : List Said),
    Endured me0 false true cfg0 env0 os w ∧ Numeric me0.headers ∧ w.peer.outbox = x :: rest ∧
      ∃ b', step cfg0 env0 (me0.msg x) w.broker = .error (.ub .nullDeref) b' := by
  obtain ⟨os, w, h, hp⟩ := exists_endured (Q := Multi) (cfg := cfg0) (env := env0) (me := me0)
    (lossy := false) (mortal := true) rebornActs
    (fun _ w => decide (w.peer.outbox = [.done "J" .ok]) &&
      match step cfg0 env0 (me0.msg (.done "J" .ok)) w.broker with
      | .error (.ub .nullDeref) _ => true
      | _ => false) (by decide +kernel)
  simp only [Bool.and_eq_true, decide_eq_true_eq] at hp
  refine ⟨os, w, _, [], h, me0_numeric, hp.1, ?_⟩
  have := hp.2
  split at this
  · exact ⟨_, by assumption⟩
  · cases this

end Broker
