import Verif.Proof.Heartbeat
import Verif.Proof.Frozen
import Verif.Proof.Numbers
import Verif.Props.Commands

/-!
# C09-C12, C41-C43: freezing, addressing, ping, stale reports, progress, unknown commands, statistics
-/

set_option linter.unusedSectionVars false

namespace Broker

open LawfulQM

variable {Q : Type} [QueueManager Q] [LawfulQM Q]

/-! ## C09 -/

/-- **C09, freezing.** `freeze` and `unfreeze` are acknowledged and change nothing but the flag. -/
theorem C09_freeze_unfreeze {cfg : HConfig} {env : Env} {s : HState Q} {m : Msg} :
    (Spec.isCommand "freeze" m = true → step cfg env m s
      = .ok () { s with frozen := true, outs := [⟨"clients", m.identity, ["ack"]⟩] }) ∧
    (Spec.isCommand "unfreeze" m = true → step cfg env m s
      = .ok () { s with frozen := false, outs := [⟨"clients", m.identity, ["ack"]⟩] }) := by
  constructor <;> intro hc <;> obtain ⟨hk, hd⟩ := isCommand_iff.1 hc <;>
  · obtain ⟨key, identity, data⟩ := m
    cases hk
    cases data with
    | nil => cases hd
    | cons c rest =>
      cases hd
      rfl

/-- **C09, no acceptance.** While the last of the `freeze` and `unfreeze` commands was `freeze`, no
    evaluation request is accepted, and a job can enter the broker only with a worker that registers
    while already processing it. -/
theorem C09_frozen_accepts_nothing {cfg : HConfig} {env : Env} {h1 h2 : List (Tr Q)} {t : Tr Q}
    {s : HState Q} (hr : Run cfg env (h1 ++ t :: h2) s)
    (hf : Spec.frozenAfter (h1.map (·.msg)) = true) (j : String) :
    Spec.accepts j t = false ∧
      (Spec.adopts j t = false → (heldJobs t.post).count j ≤ (heldJobs t.pre).count j) := by
  obtain ⟨hr1, hs, hr2⟩ := hr.prefix
  have hacc : Spec.accepts j t = false := by
    cases ha : Spec.accepts j t with
    | false => rfl
    | true =>
      obtain ⟨evs, hi⟩ := step_info hr1.inv.1 hs
      simp only [Spec.accepts, Bool.and_eq_true, beq_iff_eq, Tr.outs, List.contains_iff_mem] at ha
      obtain ⟨⟨hk, hd⟩, ho⟩ := ha
      rw [hi.outs] at ho
      have hd' : t.msg.data.head? = some "eval" := by
        cases hdd : t.msg.data with
        | nil => rw [hdd] at hd; cases hd
        | cons a b => rw [hdd] at hd; cases b <;> simp_all
      obtain ⟨_, hscr⟩ := hi.script.eval_inv hk hd'
      have hfr : t.pre.frozen = true := by rw [frozen_after hr1]; exact hf
      cases hscr with
      | malformed => simp [Ev.msgs] at ho
      | frozen => simp [Ev.msgs] at ho
      | submit hf' =>
        rw [show ({ t.pre with outs := [] } : HState Q).frozen = t.pre.frozen from rfl, hfr] at hf'
        cases hf'
  refine ⟨hacc, fun had => ?_⟩
  have c1 := C01_job_accounting hr1 j
  have c2 := C01_job_accounting hr2 j
  have h4 : emitted (h1 ++ [t]) = emitted h1 ++ t.post.outs := by simp [emitted, Tr.outs]
  rw [h4] at c2
  simp only [List.countP_append, List.countP_singleton, hacc, had] at c2
  have : (emitted h1 ++ t.post.outs).countP (Spec.isFinal j)
      = (emitted h1).countP (Spec.isFinal j) + t.post.outs.countP (Spec.isFinal j) := by simp
  simp at c2
  omega

/-- **C09, no influence on anything else.** Messages that are not from clients (worker messages,
    timer messages) are handled in exactly the same way whether the broker is frozen or not; in
    particular jobs already held are processed. -/
theorem C09_frozen_keeps_working {cfg : HConfig} {env : Env} {m : Msg} {s s' : HState Q}
    (hk : m.key ≠ "clients") (hs : step cfg env m s = .ok () s') (b : Bool) :
    step cfg env m { s with frozen := b } = .ok () { s' with frozen := b } := by
  have := step_setFrozen (cfg := cfg) (env := env) hk b s
  rw [hs] at this
  exact this

/-- Messages for the check: one job is accepted, then the broker is frozen, one request is rejected,
    the job finishes, the broker is unfrozen and accepts again. -/
def freezeMsgs : List Msg :=
  [fromW "w1" ["init", "group", "env=c", "", ""],
   fromC "client" ["eval", "J1", "env=c", "", "x"],
   fromC "admin" ["freeze"],
   fromC "client" ["eval", "J2", "env=c", "", "x"],
   fromW "w1" ["done", "J1", "OK"],
   fromC "admin" ["unfreeze"],
   fromC "client" ["eval", "J3", "env=c", "", "x"]]

example : ∃ h s, Run (Q := Single) cfg0 env0 h s ∧
    (decide (h.length = 7) && Spec.frozenAfter ((h.take 3).map (·.msg)) &&
      Spec.frozenAfter ((h.take 4).map (·.msg)) && !(Spec.frozenAfter ((h.take 6).map (·.msg))) &&
      decide (h.countP (Spec.accepts "J1") = 1) && decide (h.countP (Spec.accepts "J2") = 0) &&
      decide (h.countP (Spec.accepts "J3") = 1) &&
      decide ((emitted h).countP (Spec.isOk "J1") = 1)) = true :=
  exists_run freezeMsgs _ (by decide +kernel)

/-! ## C10 -/

/-- **C10.** Every message emitted goes to one of the four destinations; messages for clients are
    emitted only while handling a client message, and only to its sender; messages for the monitor
    carry the identity of the monitor; messages for workers that are not evaluation messages answer
    the sender of a `ping` - with one exception: a worker that registers while processing a job may
    be sent a message without frames (see C44). -/
theorem C10_addressing {cfg : HConfig} {env : Env} {h1 h2 : List (Tr Q)} {t : Tr Q} {s : HState Q}
    (hr : Run cfg env (h1 ++ t :: h2) s) {o : Msg} (ho : o ∈ t.outs) :
    (o.key = "workers" ∨ o.key = "clients" ∨ o.key = "monitor" ∨ o.key = "status_notifier") ∧
    (o.key = "clients" → t.msg.key = "clients" ∧ o.identity = t.msg.identity) ∧
    (o.key = "monitor" → o.identity = "recodex-monitor") ∧
    (o.key = "status_notifier" → o.identity = "") ∧
    (o.key = "workers" → Spec.isEval o = false → t.msg.key = "workers" ∧
      o.identity = t.msg.identity ∧
      ((t.msg.data.head? = some "ping" ∧ (o.data = ["pong"] ∨ o.data = ["intro"])) ∨
       (t.msg.data.head? = some "init" ∧ o.data = []))) := by
  obtain ⟨hr1, hs, _⟩ := hr.prefix
  obtain ⟨evs, hi⟩ := step_info hr1.inv.1 hs
  have ho' : o ∈ msgsOf evs := by rw [← hi.outs]; exact ho
  obtain ⟨e, he, hoe⟩ := List.mem_flatMap.1 ho'
  have hsh := hi.script.shape e he
  have nk : ∀ {a b : String}, a ≠ b → o.key = a → o.key = b → False :=
    fun h h1 h2 => h (h1.symm.trans h2)
  have notif : o.key = "status_notifier" → o.identity = "" →
    (o.key = "workers" ∨ o.key = "clients" ∨ o.key = "monitor" ∨ o.key = "status_notifier") ∧
    (o.key = "clients" → t.msg.key = "clients" ∧ o.identity = t.msg.identity) ∧
    (o.key = "monitor" → o.identity = "recodex-monitor") ∧
    (o.key = "status_notifier" → o.identity = "") ∧
    (o.key = "workers" → Spec.isEval o = false → t.msg.key = "workers" ∧
      o.identity = t.msg.identity ∧
      ((t.msg.data.head? = some "ping" ∧ (o.data = ["pong"] ∨ o.data = ["intro"])) ∨
       (t.msg.data.head? = some "init" ∧ o.data = []))) := by
    intro hk hid
    exact ⟨.inr (.inr (.inr hk)), fun h => (nk (by decide) hk h).elim,
      fun h => (nk (by decide) hk h).elim, fun _ => hid, fun h => (nk (by decide) hk h).elim⟩
  by_cases hev : Spec.isEval o = true
  · have hk : o.key = "workers" := by
      simp only [Spec.isEval, Bool.and_eq_true, beq_iff_eq] at hev; exact hev.1
    exact ⟨.inl hk, fun h => (nk (by decide) hk h).elim, fun h => (nk (by decide) hk h).elim,
      fun h => (nk (by decide) hk h).elim, fun _ hne => absurd hev (by rw [hne]; decide)⟩
  have gives : ∀ w r, e.gives = some (w, r) → False := by
    intro w r hg
    obtain ⟨_, _, g3, _⟩ := hr1.gives hi he hg
    obtain ⟨x, hx⟩ := g3.frames
    have hms : e.msgs = [sendMsg w r] := by cases e <;> simp_all [Ev.gives, Ev.msgs]
    rw [hms] at hoe
    have := List.mem_singleton.1 hoe
    subst this
    exact hev (by simp [Spec.isEval, sendMsg, hx, keyWorkers])
  cases e with
  | say m =>
    have : o = m := by simpa [Ev.msgs] using hoe
    subst this
    cases hsh with
    | client hk hm hid =>
      exact ⟨.inr (.inl hm), fun _ => ⟨hk, hid⟩, fun h => (nk (by decide) hm h).elim,
        fun h => (nk (by decide) hm h).elim, fun h => (nk (by decide) hm h).elim⟩
    | monitor h =>
      exact ⟨.inr (.inr (.inl h.1)), fun h' => (nk (by decide) h.1 h').elim, fun _ => h.2,
        fun h' => (nk (by decide) h.1 h').elim, fun h' => (nk (by decide) h.1 h').elim⟩
    | worker hk hm hid hc hd =>
      exact ⟨.inl hm, fun h => (nk (by decide) hm h).elim, fun h => (nk (by decide) hm h).elim,
        fun h => (nk (by decide) hm h).elim, fun _ _ => ⟨hk, hid, .inl ⟨hc, hd⟩⟩⟩
    | error hk hm hid hd => exact notif hm hid
  | done w r =>
    have : o = okMsg r.jobId := by simpa [Ev.msgs] using hoe
    subst this; exact notif rfl rfl
  | failed w r text =>
    have : o = failMsg r.jobId text := by simpa [Ev.msgs] using hoe
    subst this; exact notif rfl rfl
  | giveUp r text =>
    have : o = failMsg r.jobId text := by simpa [Ev.msgs] using hoe
    subst this; exact notif rfl rfl
  | drop => simp [Ev.msgs] at hoe
  | accept r => simp [Ev.msgs] at hoe
  | register w cur => simp [Ev.msgs] at hoe
  | park r => simp [Ev.msgs] at hoe
  | cancel w r => simp [Ev.msgs] at hoe
  | expire w c q => simp [Ev.msgs] at hoe
  | send w r => exact (gives w r rfl).elim
  | pull w r => exact (gives w r rfl).elim
  | resend w r =>
    have : o = sendMsg w r := by simpa [Ev.msgs] using hoe
    subst this
    have hfr := hi.steps.resend_frames he
    exact ⟨.inl rfl, fun h => absurd h (by simp [sendMsg, keyWorkers]),
      fun h => absurd h (by simp [sendMsg, keyWorkers]),
      fun h => absurd h (by simp [sendMsg, keyWorkers]),
      fun _ _ => ⟨hsh.1, hsh.2.1, .inr ⟨hsh.2.2, hfr⟩⟩⟩

/-! ## C11, C41, C42 -/

omit [QueueManager Q] [LawfulQM Q] in
theorem registered_iff {i : String} {s : HState Q} :
    Spec.Registered i s ↔ (regFind i s.workers).isSome = true := by
  constructor
  · rintro ⟨w, hw, rfl⟩
    rw [regFind, List.find?_isSome]
    exact ⟨w, hw, by simp⟩
  · intro h
    obtain ⟨w, hw⟩ := Option.isSome_iff_exists.1 h
    exact ⟨w, regFind_mem hw⟩

/-- **C11.** A `ping` is answered to its sender with `pong` if a worker with this identity is
    registered and with `intro` otherwise; nothing else is emitted and nothing but the heartbeat of
    the sender changes. -/
theorem C11_ping {cfg : HConfig} {env : Env} {h : List (Tr Q)} {s : HState Q} {m : Msg}
    (hr : Run cfg env h s) (hk : m.key = "workers") (hd : m.data.head? = some "ping") :
    ∃ s', step cfg env m s = .ok () s' ∧ Spec.OnlyHeartbeat m.identity s s' ∧
      (Spec.Registered m.identity s → s'.outs = [⟨"workers", m.identity, ["pong"]⟩]) ∧
      (¬ Spec.Registered m.identity s → s'.outs = [⟨"workers", m.identity, ["intro"]⟩]) := by
  cases hdd : m.data with
  | nil => rw [hdd] at hd; cases hd
  | cons c rest =>
    rw [hdd] at hd; cases hd
    obtain ⟨s', hs⟩ := simple_total (cfg := cfg) (env := env) hr.inv.1 hdd
      (by rw [hk]; decide) (fun _ => by decide) (fun _ => by decide)
    refine ⟨s', hs, ?_⟩
    obtain ⟨evs, hi⟩ := step_info hr.inv.1 hs
    have := hi.script.ping_inv hk hdd
    subst this
    refine ⟨onlyHeartbeat_heard hr.inv.1 _, ?_, ?_⟩
    · intro hreg
      rw [registered_iff] at hreg
      simp [hreg, keyWorkers]
    · intro hreg
      rw [registered_iff, Bool.not_eq_true, Option.isSome_eq_false_iff] at hreg
      simp [hreg, keyWorkers]

/-- **C41.** A `progress` message is forwarded to the monitor with exactly its remaining frames;
    nothing else is emitted and nothing but the heartbeat of the sender changes. -/
theorem C41_progress {cfg : HConfig} {env : Env} {h : List (Tr Q)} {s : HState Q} {m : Msg}
    {rest : List String} (hr : Run cfg env h s) (hk : m.key = "workers")
    (hd : m.data = "progress" :: rest) :
    ∃ s', step cfg env m s = .ok () s' ∧ Spec.OnlyHeartbeat m.identity s s' ∧
      s'.outs = [⟨"monitor", "recodex-monitor", rest⟩] := by
  obtain ⟨s', hs⟩ := simple_total (cfg := cfg) (env := env) hr.inv.1 hd
    (by rw [hk]; decide) (fun _ => by decide) (fun _ => by decide)
  refine ⟨s', hs, ?_⟩
  obtain ⟨evs, hi⟩ := step_info hr.inv.1 hs
  have := hi.script.progress_inv hk hd
  subst this
  exact ⟨onlyHeartbeat_heard hr.inv.1 _, rfl⟩

/-- **C42, workers.** An unknown command of a worker emits nothing and changes nothing but the
    heartbeat of the sender. -/
theorem C42_unknown_worker_command {cfg : HConfig} {env : Env} {h : List (Tr Q)} {s : HState Q}
    {m : Msg} {c : String} {rest : List String} (hr : Run cfg env h s) (hk : m.key = "workers")
    (hd : m.data = c :: rest) (hc : c ∉ ["init", "done", "ping", "progress"]) :
    ∃ s', step cfg env m s = .ok () s' ∧ Spec.OnlyHeartbeat m.identity s s' ∧ s'.outs = [] := by
  simp only [List.mem_cons, List.not_mem_nil, or_false, not_or] at hc
  obtain ⟨s', hs⟩ := simple_total (cfg := cfg) (env := env) hr.inv.1 hd
    (by rw [hk]; decide) (fun _ => ⟨hc.1, hc.2.1⟩) (fun h => absurd (hk.symm.trans h) wkey_ne_ckey)
  refine ⟨s', hs, ?_⟩
  obtain ⟨evs, hi⟩ := step_info hr.inv.1 hs
  have := hi.script.unknown_inv hk hd hc
  have h2 := onlyHeartbeat_heard (cfg := cfg) (i := m.identity) hr.inv.1 []
  have h3 : (({ s with outs := [] } : HState Q).heard cfg m.identity).outs = [] := by
    unfold HState.heard; split <;> rfl
  subst this
  refine ⟨?_, h3⟩
  have h4 : ({ ({ s with outs := [] } : HState Q).heard cfg m.identity with outs := [] } : HState Q)
      = ({ s with outs := [] } : HState Q).heard cfg m.identity := by
    unfold HState.heard; split <;> rfl
  rwa [h4] at h2

omit [LawfulQM Q] in
/-- **C42, clients and other origins.** An unknown command of a client and any message that is
    neither from workers nor from clients nor from the timer emit nothing and change nothing. -/
theorem C42_unknown_inert {cfg : HConfig} {env : Env} {s : HState Q} {m : Msg}
    (h : (m.key = "clients" ∧ ∃ c rest, m.data = c :: rest ∧
        c ∉ ["eval", "get-runtime-stats", "freeze", "unfreeze"]) ∨
      m.key ∉ ["workers", "clients", "timer"]) :
    step cfg env m s = .ok () { s with outs := [] } := by
  obtain ⟨key, identity, data⟩ := m
  rcases h with ⟨hk, c, rest, hd, hc⟩ | hk
  · cases hk
    cases hd
    simp only [List.mem_cons, List.not_mem_nil, or_false, not_or] at hc
    simp only [step, onRequest]
    rw [if_neg (by decide), if_pos (by rfl)]
    simp only [clientCommand, if_neg hc.1, if_neg hc.2.1, if_neg hc.2.2.1, if_neg hc.2.2.2]
    rfl
  · simp only [List.mem_cons, List.not_mem_nil, or_false, not_or] at hk
    have h1 : key ≠ keyWorkers := hk.1
    have h2 : key ≠ keyClients := hk.2.1
    have h3 : key ≠ keyTimer := hk.2.2
    simp only [step, onRequest, if_neg h1, if_neg h2, if_neg h3]
    rfl

/-! ## C12 -/

/-- **C12.** A `done` message from an unregistered identity, with fewer than three frames, or whose
    job id is not the one of the job the sender is processing, is handled without effect: nothing is
    emitted and nothing but the heartbeat of the sender changes. -/
theorem C12_stale_done {cfg : HConfig} {env : Env} {h : List (Tr Q)} {s : HState Q} {m : Msg}
    (hr : Run cfg env h s) (hk : m.key = "workers") (hd : m.data.head? = some "done")
    (hst : ¬ Spec.Registered m.identity s ∨ m.data.length < 3 ∨
      ∃ w r, s.workers.find? (fun w => w.identity == m.identity) = some w ∧
        (QueueManager.currentRequest s.queue w).1 = some r ∧ m.data[1]? ≠ some r.jobId) :
    ∃ s', step cfg env m s = .ok () s' ∧ Spec.OnlyHeartbeat m.identity s s' ∧ s'.outs = [] := by
  have hfind : ∀ w, s.workers.find? (fun w => w.identity == m.identity) = some w →
      regFind m.identity s.workers = some w := by
    intro w hw; rw [regFind]; simpa using hw
  cases hdd : m.data with
  | nil => rw [hdd] at hd; cases hd
  | cons c rest =>
    have htot : ∃ s', step cfg env m s = .ok () s' := by
      refine step_total hr.inv.1 ?_
      intro e he
      cases he with
      | empty _ hd' _ => rw [hdd] at hd'; cases hd'
      | init _ hd' => rw [hd'] at hd; simp at hd
      | eval hk' => rw [hk] at hk'; exact absurd hk' (by decide)
      | timer hk' => rw [hk] at hk'; exact absurd hk' (by decide)
      | done _ _ he =>
        obtain ⟨h3, _, w, hw, hno⟩ := he
        have hw' : regFind m.identity s.workers = some w := hw
        rcases hst with h1 | h1 | ⟨w', r, hw1, hc, _⟩
        · exact h1 ⟨w, regFind_mem hw'⟩
        · omega
        · rw [hfind _ hw1] at hw'
          cases hw'
          have hwm := (regFind_mem (hfind _ hw1)).1
          have := ((LawfulQM.current hr.inv.1.qinv (hr.inv.1.mem_reg.1 hwm)).2 r).1 hc
          exact hno r this
    obtain ⟨s', hs⟩ := htot
    refine ⟨s', hs, ?_⟩
    obtain ⟨evs, hi⟩ := step_info hr.inv.1 hs
    have hcase := hi.script.done_inv hk hd
    have hq : (({ s with outs := [] } : HState Q).heard cfg m.identity).queue = s.queue := by
      rw [heard_frame]
    have hws : (({ s with outs := [] } : HState Q).heard cfg m.identity).workers = s.workers := by
      rw [heard_frame]
    have h3 : (({ s with outs := [] } : HState Q).heard cfg m.identity).outs = [] := by
      unfold HState.heard; split <;> rfl
    have h4 : ({ ({ s with outs := [] } : HState Q).heard cfg m.identity with outs := [] } : HState Q)
        = ({ s with outs := [] } : HState Q).heard cfg m.identity := by
      unfold HState.heard; split <;> rfl
    have h2 := onlyHeartbeat_heard (cfg := cfg) (i := m.identity) hr.inv.1 []
    rw [h4] at h2
    have key : s' = ({ s with outs := [] } : HState Q).heard cfg m.identity := by
      cases hcase with
      | unknown _ h => exact h
      | short _ h => exact h
      | stale _ _ _ _ h => exact h
      | report hw hm hb hj hf hds =>
        rename_i w r c' j st rest'
        exfalso
        rw [hws] at hw
        rw [hq] at hb
        rcases hst with h1 | h1 | ⟨w', r', hw1, hc, hne⟩
        · exact h1 ⟨w, regFind_mem hw⟩
        · rw [hm] at h1; simp only [List.length_cons] at h1; omega
        · rw [hfind _ hw1] at hw
          cases hw
          have hwm := (regFind_mem (hfind _ hw1)).1
          have := ((LawfulQM.current hr.inv.1.qinv (hr.inv.1.mem_reg.1 hwm)).2 r).2 hb
          rw [this] at hc
          cases hc
          rw [hm] at hne
          exact hne (by simp [hj])
    subst key
    exact ⟨h2, h3⟩

/-! ## C43 -/

/-- The statistics a reply consists of: even length, distinct keys, decimal values. -/
structure StatsReply (reply : List String) : Prop where
  even : reply.length % 2 = 0
  distinct : ((Spec.pairs reply).map (·.1)).Nodup
  decimal : ∀ p ∈ Spec.pairs reply, ∃ n, Spec.IsDecimal p.2 n

/-- **C43.** `get-runtime-stats` is answered to its sender with an even number of alternating
    distinct keys and decimal values, among them the keys the munin plug-in reads
    (install/munin-broker:38-40) and three more, and changes nothing. -/
theorem C43_stats_reply {cfg : HConfig} {env : Env} {s : HState Q} {m : Msg}
    (hc : Spec.isCommand "get-runtime-stats" m = true) :
    ∃ reply, step cfg env m s = .ok () { s with outs := [⟨"clients", m.identity, reply⟩] } ∧
      StatsReply reply ∧
      ∀ k ∈ ["evaluated-jobs", "failed-jobs", "queued-jobs", "worker-count", "idle-worker-count",
        "is-frozen"], k ∈ (Spec.pairs reply).map (·.1) := by
  obtain ⟨hk, hd⟩ := isCommand_iff.1 hc
  refine ⟨statsReply s.stats s.frozen, ?_, ?_, ?_⟩
  · obtain ⟨key, identity, data⟩ := m
    cases hk
    cases data with
    | nil => cases hd
    | cons c rest => cases hd; rfl
  · have hb : ∃ n, Spec.IsDecimal (if s.frozen then "1" else "0") n := by
      cases s.frozen
      · exact ⟨0, natStr_isDecimal 0⟩
      · exact ⟨1, natStr_isDecimal 1⟩
    unfold statsReply
    cases s.stats.inProgress with
    | none =>
      refine ⟨by simp, by simp [Spec.pairs], ?_⟩
      simp only [Spec.pairs, List.cons_append, List.nil_append, List.mem_cons,
        List.not_mem_nil, or_false]
      rintro p (rfl | rfl | rfl | rfl | rfl | rfl)
      all_goals first | exact hb | exact ⟨_, natStr_isDecimal _⟩
    | some n =>
      refine ⟨by simp, by simp [Spec.pairs], ?_⟩
      simp only [Spec.pairs, List.cons_append, List.nil_append, List.mem_cons,
        List.not_mem_nil, or_false]
      rintro p (rfl | rfl | rfl | rfl | rfl | rfl | rfl)
      all_goals first | exact hb | exact ⟨_, natStr_isDecimal _⟩
  · unfold statsReply
    cases s.stats.inProgress <;> simp [Spec.pairs]

/-! ## Cases that meet the hypotheses -/

/-- A worker with a job and one without, an unregistered worker; messages as in C10-C12, C41-C43. -/
def replyMsgs : List Msg :=
  [fromW "w1" ["init", "group", "env=c", "", ""],
   fromW "w2" ["init", "group", "env=java", "", ""],
   fromC "client" ["eval", "J1", "env=c", "", "x"],
   fromW "w1" ["ping"],
   fromW "w3" ["ping"],
   fromW "w1" ["done", "J0", "OK"],
   fromW "w1" ["done", "J1"],
   fromW "w3" ["done", "J1", "OK"],
   fromW "w1" ["progress", "J1", "TASK", "t1"],
   fromW "w1" ["hello"],
   fromC "client" ["hello"],
   ⟨"monitor", "", ["x"]⟩,
   fromC "client" ["get-runtime-stats"]]

/-- What was emitted for each of them. -/
def replyCheck {Q : Type} [QueueManager Q] (h : List (Tr Q)) (s : HState Q) : Bool :=
  (h.drop 3).map (fun t => t.outs.map (fun o => (o.key, o.identity, o.data.take 4))) ==
  [[("workers", "w1", ["pong"])], [("workers", "w3", ["intro"])], [], [], [],
   [("monitor", "recodex-monitor", ["J1", "TASK", "t1"])], [], [], [],
   [("clients", "client", ["evaluated-jobs", "0", "failed-jobs", "0"])]] &&
  s.workers.map (fun w => (QueueManager.currentRequest s.queue w).1.map (·.jobId)) ==
    [some "J1", none]

example : ∃ h s, Run (Q := Single) cfg0 env0 h s ∧ replyCheck h s = true :=
  exists_run replyMsgs replyCheck (by decide +kernel)

example : ∃ h s, Run (Q := Multi) cfg0 env0 h s ∧ replyCheck h s = true :=
  exists_run replyMsgs replyCheck (by decide +kernel)

end Broker
