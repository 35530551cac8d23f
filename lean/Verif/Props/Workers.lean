import Verif.Proof.Liveness
import Verif.Props.Replies

/-!
# C15, C28, C29, C30, C45, C47, C48: registration of workers and failure reports
-/

set_option linter.unusedSectionVars false

namespace Broker

open LawfulQM

variable {Q : Type} [QueueManager Q] [LawfulQM Q]

/-! ## Tools -/

theorem addMatchers_total : ∀ (hs : Headers) (m : MMap Matcher),
    (∀ e ∈ hs, e.1 = "threads" → ∃ n, stoul e.2 = .ok n) → ∃ m', addMatchers hs m = .ok m' := by
  intro hs
  induction hs with
  | nil => intro m _; exact ⟨m, rfl⟩
  | cons a t ih =>
    obtain ⟨k, v⟩ := a
    intro m h
    rw [addMatchers.eq_def]
    simp only
    have ht := fun e he => h e (List.mem_cons_of_mem _ he)
    split
    · rename_i hk
      obtain ⟨n, hn⟩ := h (k, v) (by simp) hk
      rw [show stoul v = .ok n from hn]
      exact ih _ ht
    · exact ih _ ht

/-- A worker whose `threads` headers carry numbers can be created. -/
theorem create_total {fs : List String} (h : Spec.Numeric (Spec.headerFrames fs)) (a : Nat)
    (i g d : String) : ∃ w, Worker.create a i g (initHeaders fs []).1 d = .ok w := by
  obtain ⟨m, hm⟩ := addMatchers_total (initHeaders fs []).1 (mmEmplace "hwgroup" (.multi g) []) (by
    intro e he hk
    rcases (mem_initHeaders fs [] e).1 he with h1 | ⟨f, hf, rfl⟩
    · simp at h1
    · obtain ⟨n, hn⟩ := h f hf hk
      exact ⟨n, (stoul_iff _ _).2 hn⟩)
  exact ⟨_, by simp only [Worker.create, hm]; rfl⟩

/-- An `init` message with numbers in its `threads` headers is handled. -/
theorem init_total {cfg : HConfig} {env : Env} {m : Msg} {s : HState Q} (h : HInv s)
    (hk : m.key = keyWorkers) {g : String} {fs : List String} (hd : m.data = "init" :: g :: fs)
    (hn : Spec.Numeric (Spec.headerFrames fs)) : ∃ s', step cfg env m s = .ok () s' := by
  refine step_total h ?_
  intro e he
  cases he with
  | empty _ hd' _ => rw [hd] at hd'; cases hd'
  | done _ hd' => rw [hd] at hd'; simp at hd'
  | eval hk' => exact absurd (hk.symm.trans hk') wkey_ne_ckey
  | timer hk' => exact absurd (hk.symm.trans hk') wkey_ne_tkey
  | init _ hd' he =>
    obtain ⟨c, hw, rest, x, hm, _, _, hc⟩ := he
    rw [hd] at hm
    simp only [List.cons.injEq] at hm
    obtain ⟨_, rfl, rfl⟩ := hm
    obtain ⟨w, hw⟩ := create_total hn
      (env.alloc (HState.heard cfg m.identity { s with outs := [] }).allocs
        (HState.heard cfg m.identity { s with outs := [] }).addrs)
      m.identity g (initExtra (initHeaders fs []).2 "" none).1
    rw [hw] at hc; cases hc

omit [QueueManager Q] [LawfulQM Q] in
theorem regFind_of_find {i : String} {s : HState Q} {o : Option Worker}
    (h : s.workers.find? (fun w => w.identity == i) = o) : regFind i s.workers = o := by
  rw [regFind]; simpa using h

theorem heard_outs (cfg : HConfig) (i : String) (s : HState Q) :
    (({ s with outs := [] } : HState Q).heard cfg i).outs = [] := by
  unfold HState.heard; split <;> rfl

theorem heard_heartbeat {cfg : HConfig} {i : String} {s : HState Q} (h : HInv s) :
    Spec.OnlyHeartbeat i s (({ s with outs := [] } : HState Q).heard cfg i) := by
  have h2 := onlyHeartbeat_heard (cfg := cfg) (i := i) h []
  have h4 : ({ ({ s with outs := [] } : HState Q).heard cfg i with outs := [] } : HState Q)
      = ({ s with outs := [] } : HState Q).heard cfg i := by
    unfold HState.heard; split <;> rfl
  rwa [h4] at h2

theorem processing_iff {i : String} {w : Worker} {r : Req} {s : HState Q} (h : HInv s) :
    Spec.Processing i w r s ↔ regFind i s.workers = some w ∧ (w, r) ∈ busy s.queue := by
  unfold Spec.Processing
  have e : s.workers.find? (fun w => w.identity == i) = regFind i s.workers := by
    rw [regFind]
  rw [e]
  refine and_congr_right (fun hw => ?_)
  exact (LawfulQM.current h.qinv (h.mem_reg.1 (regFind_mem hw).1)).2 r

/-! ## C28 -/

/-- **C28.** An `init` from a registered identity is without effect (apart from the heartbeat)
    exactly if for every header name it declares the same values in the same order as the `init`
    that registered the worker. -/
theorem C28_repeated_init {cfg : HConfig} {env : Env} {h : List (Tr Q)} {s s' : HState Q} {m : Msg}
    (hr : Run cfg env h s) (hk : m.key = "workers") {g : String} {fs ds : List String}
    (hd : m.data = "init" :: g :: fs) {w : Worker}
    (hw : s.workers.find? (fun w => w.identity == m.identity) = some w)
    {i : Tr Q} (hi : i ∈ h) (ho : WorkerOrigin i w ds) (hs : step cfg env m s = .ok () s') :
    (s'.workers = s.workers ↔ ∀ k, Spec.declared k fs = Spec.declared k ds) ∧
    (s'.workers = s.workers → Spec.OnlyHeartbeat m.identity s s' ∧ s'.outs = []) := by
  obtain ⟨evs, hinfo⟩ := step_info hr.inv.1 hs
  have hwf := regFind_of_find hw
  have hws : (({ s with outs := [] } : HState Q).heard cfg m.identity).workers = s.workers := by
    rw [heard_frame]
  have hhead : w.headers = (initHeaders ds []).1 := by
    obtain ⟨h1, h2, rfl⟩ := List.append_of_mem hi
    obtain ⟨hr1, hst, _⟩ := hr.prefix
    obtain ⟨evs', hi'⟩ := step_info hr1.inv.1 hst
    rcases hi'.steps.mem_reg (hi'.inv.mem_reg.1 ho.new.2) with hm' | ⟨e, he, hre⟩
    · exact absurd (hr1.inv.1.mem_reg.2 hm') ho.new.1
    · obtain ⟨rest, hif⟩ := step_registers hi' e he w hre
      have : rest = ds := by
        have h1 := hif.data
        have h2 := ho.data
        rw [h1] at h2
        simpa using h2
      subst this
      exact (Worker.create_fields hif.created).2.2.2.1
  have hiff : w.headers = (initHeaders fs []).1 ↔ ∀ k, Spec.declared k fs = Spec.declared k ds := by
    rw [hhead, initHeaders_eq_iff]
    exact ⟨fun h k => (h k).symm, fun h k => (h k).symm⟩
  have hscr := hinfo.script.init_inv hk (by rw [hd]; rfl)
  rw [← hiff]
  cases hscr with
  | short h => rw [hd] at h; simp only [List.length_cons] at h; omega
  | same hfr hm hw' he =>
    rw [hd] at hm; rw [hws, hwf] at hw'
    simp only [List.cons.injEq] at hm
    obtain ⟨_, _, rfl⟩ := hm
    cases hw'
    subst hfr
    exact ⟨iff_of_true hws he, fun _ => ⟨heard_heartbeat hr.inv.1, heard_outs _ _ _⟩⟩
  | fresh hm hw' => rw [hws, hwf] at hw'; cases hw'
  | again hm hw' hne hn hf hreg =>
    rw [hd] at hm; rw [hws, hwf] at hw'
    simp only [List.cons.injEq] at hm
    obtain ⟨_, _, rfl⟩ := hm
    cases hw'
    have hlen : s'.workers ≠ s.workers := by
      rw [hf.workers, hws]
      intro h
      have := congrArg List.length h
      simp at this
    exact ⟨iff_of_false hlen hne, fun h => absurd h hlen⟩

/-! ## C47 -/

/-- The worker is what an `init` message describes. -/
structure Described (w : Worker) (m : Msg) (g : String) (fs : List String) : Prop where
  identity : w.identity = m.identity
  hwgroup : w.hwgroup = g
  headers : ∀ k, (w.headers.filter (fun e => e.1 == k)).map (·.2) = Spec.declared k fs
  description : w.description = Spec.describedAs m.data

/-- A handled `init` message with new headers registers one worker. -/
theorem init_registers {cfg : HConfig} {env : Env} {h : List (Tr Q)} {s s' : HState Q} {m : Msg}
    (hr : Run cfg env h s) (hk : m.key = "workers") {g : String} {fs : List String}
    (hd : m.data = "init" :: g :: fs) (hs : step cfg env m s = .ok () s')
    (hnew : ∀ w, s.workers.find? (fun w => w.identity == m.identity) = some w →
      ∃ k, (w.headers.filter (fun e => e.1 == k)).map (·.2) ≠ Spec.declared k fs) :
    ∃ w, s'.workers = s.workers ++ [w] ∧
      w.addr ∉ s.workers.map (·.addr) ∧ Described w m g fs ∧
      ∀ j, Spec.currentJob m.data = some j →
        ∃ r, (QueueManager.currentRequest s'.queue w).1 = some r ∧ r.jobId = j := by
  obtain ⟨evs, hinfo⟩ := step_info hr.inv.1 hs
  have hws : (({ s with outs := [] } : HState Q).heard cfg m.identity).workers = s.workers := by
    rw [heard_frame]
  have hscr := hinfo.script.init_inv hk (by rw [hd]; rfl)
  have main : ∀ {w : Worker} {cur : Option Req} {evs' : List Ev},
      NewWorker (({ s with outs := [] } : HState Q).heard cfg m.identity) env m.identity g
        (initHeaders fs []).1 (initHeaders fs []).2 w cur →
      RegFrame (({ s with outs := [] } : HState Q).heard cfg m.identity) s' w →
      RegScript w cur evs' → (∀ e ∈ evs', e ∈ evs) →
      (evs = evs' ∨ ∃ x, evs = .say x :: evs') →
      ∃ w, s'.workers = s.workers ++ [w] ∧
      w.addr ∉ s.workers.map (·.addr) ∧ Described w m g fs ∧
      ∀ j, Spec.currentJob m.data = some j →
        ∃ r, (QueueManager.currentRequest s'.queue w).1 = some r ∧ r.jobId = j := by
    intro w cur evs' hnw hf hreg hsub hevs
    obtain ⟨hc1, hc2, hc3, hc4, hc5⟩ := Worker.create_fields hnw.created
    have hws' : s'.workers = s.workers ++ [w] := by rw [hf.workers, hws]
    have hmem : Ev.register w cur ∈ evs := hsub _ (by cases hreg <;> simp)
    obtain ⟨rest, hif⟩ := step_registers hinfo _ hmem w rfl
    refine ⟨w, hws', hif.fresh, ⟨hc2, hc3, ?_, ?_⟩, ?_⟩
    · intro k
      have := mmRange_initHeaders k fs [] List.Pairwise.nil
      rw [hc4]
      simpa [mmRange] using this
    · rw [hc5, initExtra_desc, initHeaders_snd, hd]; rfl
    · intro j hj
      rw [hd, currentJob_eq] at hj
      have hcur := hnw.cur_eq
      rw [hj] at hcur
      simp only [Option.map_some] at hcur
      refine ⟨Req.incomplete (({ s with outs := [] } : HState Q).heard cfg m.identity).nextRid j, ?_,
        rfl⟩
      have hwr : w ∈ s'.workers := by rw [hws']; simp
      refine ((LawfulQM.current hinfo.inv.qinv (hinfo.inv.mem_reg.1 hwr)).2 _).2 ?_
      -- the worker is busy after the registering event
      have hst : ∃ L, LSteps cfg.maxFailures L evs' (ls s' 0) := by
        rcases hevs with rfl | ⟨x, rfl⟩
        · exact ⟨_, hinfo.steps⟩
        · have := hinfo.steps
          cases this with
          | cons _ h2 => exact ⟨_, h2⟩
      obtain ⟨L, hst⟩ := hst
      cases hreg with
      | pull r hc => rw [hcur] at hc; cases hc
      | plain =>
        cases hst with
        | cons h1 h2 =>
          cases h2
          generalize hL : ls s' 0 = L' at h1
          have hb : busy s'.queue = L'.busy := by rw [← hL]; rfl
          cases h1
          rw [hb, hcur]; simp
      | resend r hc =>
        cases hst with
        | cons h1 h2 =>
          cases h2 with
          | cons h3 h4 =>
            cases h4
            generalize hL : ls s' 0 = L' at h3
            have hb : busy s'.queue = L'.busy := by rw [← hL]; rfl
            cases h3
            cases h1
            rw [hb, hcur]; simp
  cases hscr with
  | short h => rw [hd] at h; simp only [List.length_cons] at h; omega
  | same hfr hm hw he =>
    rw [hd] at hm
    simp only [List.cons.injEq] at hm
    obtain ⟨_, _, rfl⟩ := hm
    rw [hws] at hw
    obtain ⟨k, hk'⟩ := hnew _ (by rw [regFind] at hw; simpa using hw)
    have := mmRange_initHeaders k fs [] List.Pairwise.nil
    exact absurd (by rw [he]; simpa [mmRange] using this) hk'
  | fresh hm hw hnw hf hreg =>
    rw [hd] at hm
    simp only [List.cons.injEq] at hm
    obtain ⟨_, rfl, rfl⟩ := hm
    exact main hnw hf hreg (fun e he => he) (.inl rfl)
  | again hm hw hne hnw hf hreg =>
    rw [hd] at hm
    simp only [List.cons.injEq] at hm
    obtain ⟨_, rfl, rfl⟩ := hm
    exact main hnw hf hreg (fun e he => List.mem_cons_of_mem _ he) (.inr ⟨_, rfl⟩)

/-- **C47.** An `init` message from an unknown identity (or one that declares other headers than the
    worker known under the identity) whose `threads` headers are numbers registers exactly one
    worker, as described by the message: identity, hardware group, the headers before the first
    empty frame, description and - if announced - the job it is processing. -/
theorem C47_init {cfg : HConfig} {env : Env} {h : List (Tr Q)} {s : HState Q} {m : Msg}
    (hr : Run cfg env h s) (hk : m.key = "workers") {g : String} {fs : List String}
    (hd : m.data = "init" :: g :: fs) (hn : Spec.Numeric (Spec.headerFrames fs))
    (hnew : ∀ w, s.workers.find? (fun w => w.identity == m.identity) = some w →
      ∃ k, (w.headers.filter (fun e => e.1 == k)).map (·.2) ≠ Spec.declared k fs) :
    ∃ s' w, step cfg env m s = .ok () s' ∧ s'.workers = s.workers ++ [w] ∧
      w.addr ∉ s.workers.map (·.addr) ∧ Described w m g fs ∧
      ∀ j, Spec.currentJob m.data = some j →
        ∃ r, (QueueManager.currentRequest s'.queue w).1 = some r ∧ r.jobId = j := by
  obtain ⟨s', hs⟩ := init_total (cfg := cfg) (env := env) hr.inv.1 hk hd hn
  obtain ⟨w, hw⟩ := init_registers hr hk hd hs hnew
  exact ⟨s', w, hs, hw⟩

/-- **C47, short messages.** An `init` message without hardware group is without effect. -/
theorem C47_short_init {cfg : HConfig} {env : Env} {h : List (Tr Q)} {s : HState Q} {m : Msg}
    (hr : Run cfg env h s) (hk : m.key = "workers") (hd : m.data = ["init"]) :
    ∃ s', step cfg env m s = .ok () s' ∧ Spec.OnlyHeartbeat m.identity s s' ∧ s'.outs = [] := by
  refine ⟨_, ?_, heard_heartbeat (cfg := cfg) hr.inv.1, heard_outs cfg m.identity s⟩
  obtain ⟨key, identity, data⟩ := m
  cases hk
  cases hd
  simp only [step, onRequest]
  rw [if_pos (by rfl)]
  simp only [Bind.bind, EStateM.bind, touchWorker_eq]
  rfl

/-! ## Reports about the current job -/

/-- A `done` message about the job the worker is processing is handled. -/
theorem done_report {cfg : HConfig} {env : Env} {s : HState Q} {m : Msg} (hh : HInv s)
    (hk : m.key = keyWorkers) {w : Worker} {r : Req} {st : String} {rest : List String}
    (hd : m.data = "done" :: r.jobId :: st :: rest) (hp : Spec.Processing m.identity w r s) :
    ∃ s' evs, step cfg env m s = .ok () s' ∧ StepInfo cfg env m s s' evs ∧
      DFrame (({ s with outs := [] } : HState Q).heard cfg m.identity) s' ∧
      DoneScript cfg.maxFailures (({ s with outs := [] } : HState Q).heard cfg m.identity) s' w r st
        rest evs := by
  obtain ⟨hw, hb⟩ := (processing_iff hh).1 hp
  have htot : ∃ s', step cfg env m s = .ok () s' := by
    refine step_total hh ?_
    intro e he
    cases he with
    | empty _ hd' _ => rw [hd] at hd'; cases hd'
    | init _ hd' => rw [hd] at hd'; simp at hd'
    | eval hk' => exact absurd (hk.symm.trans hk') wkey_ne_ckey
    | timer hk' => exact absurd (hk.symm.trans hk') wkey_ne_tkey
    | done _ _ he =>
      obtain ⟨h3, _, w', hw', hno⟩ := he
      have hw'' : regFind m.identity s.workers = some w' := hw'
      rw [hw] at hw''
      cases hw''
      exact hno r hb
  obtain ⟨s', hs⟩ := htot
  obtain ⟨evs, hi⟩ := step_info hh hs
  refine ⟨s', evs, hs, hi, ?_⟩
  have hcase := hi.script.done_inv hk (by rw [hd]; rfl)
  have hq : (({ s with outs := [] } : HState Q).heard cfg m.identity).queue = s.queue := by
    rw [heard_frame]
  have hws : (({ s with outs := [] } : HState Q).heard cfg m.identity).workers = s.workers := by
    rw [heard_frame]
  have huniq : ∀ r', (w, r') ∈ busy s.queue → r' = r := by
    intro r' hr'
    have h1 := (LawfulQM.current hh.qinv (hh.mem_reg.1 (regFind_mem hw).1)).2
    have h2 := ((h1 r').2 hr').symm.trans ((h1 r).2 hb)
    simpa using h2
  cases hcase with
  | unknown h => rw [hws, hw] at h; cases h
  | short h => rw [hd] at h; simp only [List.length_cons] at h; omega
  | stale hw' hm hb' hj =>
    rw [hws, hw] at hw'
    cases hw'
    rw [hq] at hb'
    rw [hd] at hm
    simp only [List.cons.injEq] at hm
    have := huniq _ hb'
    subst this
    exact absurd hm.2.1.symm hj
  | report hw' hm hb' hj hf hd' =>
    rw [hws, hw] at hw'
    cases hw'
    rw [hq] at hb'
    rw [hd] at hm
    simp only [List.cons.injEq] at hm
    have := huniq _ hb'
    subst this
    obtain ⟨_, _, rfl, rfl⟩ := hm
    exact ⟨hf, hd'⟩

/-- What a step does to the jobs held. -/
theorem StepInfo.heldJobs_eq {cfg : HConfig} {env : Env} {s s' : HState Q} {m : Msg} {evs : List Ev}
    (hi : StepInfo cfg env m s s' evs) (he : ∀ e ∈ evs, e.enters = 0) :
    heldJobs s' + ((evs.map Ev.leaves).sum).map (·.jobId) = heldJobs s := by
  ext j
  have h := hi.steps.held_count (fun r => r.jobId = j)
  rw [Multiset.count_add, heldJobs_count, heldJobs_count]
  have h2 : (evs.map (fun e => e.enters.countP (fun r => r.jobId = j))).sum = 0 := by
    refine List.sum_eq_zero ?_
    intro x hx
    obtain ⟨e, hm, rfl⟩ := List.mem_map.1 hx
    rw [he e hm]; simp
  have h3 : (((evs.map Ev.leaves).sum).map (·.jobId)).count j
      = (evs.map (fun e => e.leaves.countP (fun r => r.jobId = j))).sum := by
    rw [Multiset.count_map]
    have : ∀ l : List Ev, ((l.map Ev.leaves).sum.filter (fun r => j = r.jobId)).card
        = (l.map (fun e => e.leaves.countP (fun r => r.jobId = j))).sum := by
      intro l
      induction l with
      | nil => simp
      | cons a t ih =>
        simp only [List.map_cons, List.sum_cons, Multiset.filter_add, Multiset.card_add, ih,
          Multiset.countP_eq_card_filter, eq_comm]
    exact this evs
  omega

/-- **C48.** A report of an internal error about the job the worker is processing is always handled.
    If the job came from a client and failed fewer than `maxFailures` times, counting this one, the
    broker afterwards holds exactly the jobs it held before and the frontend is told nothing.
    Otherwise the broker drops just this job and tells the frontend, once, that it failed. -/
theorem C48_internal_error {cfg : HConfig} {env : Env} {h : List (Tr Q)} {s : HState Q} {m : Msg}
    (hr : Run cfg env h s) (hk : m.key = "workers") {w : Worker} {r : Req} {text : String}
    (hd : m.data = ["done", r.jobId, "INTERNAL_ERROR", text])
    (hp : Spec.Processing m.identity w r s) :
    ∃ s', step cfg env m s = .ok () s' ∧
      (r.complete = true ∧ s.fc r.rid + 1 < cfg.maxFailures →
        heldJobs s' = heldJobs s ∧ ∀ o ∈ s'.outs, o.key ≠ "status_notifier") ∧
      (¬ (r.complete = true ∧ s.fc r.rid + 1 < cfg.maxFailures) →
        heldJobs s = r.jobId ::ₘ heldJobs s' ∧
        ∃ why, (∃ a b, why = a ++ text ++ b) ∧ s'.outs.filter (fun o => o.key == "status_notifier") =
          [⟨"status_notifier", "",
            ["type", "job-status", "id", r.jobId, "status", "FAILED", "message", why]⟩]) := by
  obtain ⟨s', evs, hs, hi, hf, hds⟩ := done_report (cfg := cfg) (env := env) hr.inv.1 hk hd hp
  obtain ⟨hw, hb⟩ := (processing_iff hr.inv.1).1 hp
  refine ⟨s', hs, ?_⟩
  have hfc : (({ s with outs := [] } : HState Q).heard cfg m.identity).fc = s.fc := by
    rw [heard_frame]
  have hinc : r.complete = true → szInc (s.fc r.rid) = s.fc r.rid + 1 := by
    intro hc
    have := hr.inv.2.aliveB (w, r) hb hc
    exact (szInc_le_max cfg.maxFailures_lt this).1
  have hheld := hi.heldJobs_eq
  have hout := hi.outs
  clear hi
  cases hds with
  | ok hst => simp at hst
  | failed hst => simp at hst
  | ignored hs' hst => simp at hst
  | adopted hst hrest hc hstats =>
    cases hrest
    refine ⟨fun h => absurd h.1 (by simp [hc]), fun _ => ⟨?_, adoptedMsg text, ⟨_, _, rfl⟩, ?_⟩⟩
    · rw [← hheld (by intro e he; simp at he; rcases he with rfl | rfl <;> rfl)]
      simp only [List.map_cons, List.map_nil, List.sum_cons, List.sum_nil, Ev.leaves, zero_add,
        add_zero, Multiset.map_singleton]
      rw [add_comm, Multiset.singleton_add]
    · rw [hout]; rfl
  | @exhausted t text' hst hrest hc hfc' hn hstats =>
    rw [hfc, hinc hc] at hfc'
    refine ⟨fun h => absurd h.2 (by omega), fun _ => ⟨?_, ?_⟩⟩
    · rw [← hheld (by
        intro e he
        cases hn with
        | none => simp at he; rcases he with rfl | rfl | rfl <;> rfl
        | pull r' => simp at he; rcases he with rfl | rfl | rfl | rfl <;> rfl)]
      have : (t.map Ev.leaves).sum = 0 := by cases hn <;> simp [Ev.leaves]
      simp only [List.map_cons, List.sum_cons, Ev.leaves, zero_add, this,
        add_zero, Multiset.map_singleton]
      rw [add_comm, Multiset.singleton_add]
    · cases hrest
      have htext : ∀ n, ∃ a b, tooManyMsg n text = a ++ text ++ b := fun n =>
        ⟨_, "", by rw [String.append_empty]; rfl⟩
      refine ⟨tooManyMsg (szInc ((({ s with outs := [] } : HState Q).heard cfg m.identity).fc r.rid))
        text, htext _, ?_⟩
      rw [hout]
      cases hn <;> rfl
  | resent hst hrest hc hfc' hstats =>
    rw [hfc, hinc hc] at hfc'
    refine ⟨fun h => ⟨?_, ?_⟩, fun h => absurd ⟨hc, hfc'⟩ h⟩
    · rw [← hheld (by intro e he; simp at he; rcases he with rfl | rfl <;> rfl)]
      simp [Ev.leaves]
    · rw [hout]; intro o ho; simp [msgsOf, Ev.msgs, sendMsg] at ho; subst ho
      simp [keyWorkers]
  | parked hst hrest hc hfc' hstats =>
    rw [hfc, hinc hc] at hfc'
    refine ⟨fun h => ⟨?_, ?_⟩, fun h => absurd ⟨hc, hfc'⟩ h⟩
    · rw [← hheld (by intro e he; simp at he; rcases he with rfl | rfl <;> rfl)]
      simp [Ev.leaves]
    · rw [hout]; intro o ho; simp [msgsOf, Ev.msgs] at ho

/-! ## C30 -/

/-- A worker reporting success about the job it is processing: the frontend is told once, the job
    is dropped, and the only other message is the next job for the same worker. -/
theorem C30_done_ok {cfg : HConfig} {env : Env} {h : List (Tr Q)} {s : HState Q} {m : Msg}
    (hr : Run cfg env h s) (hk : m.key = "workers") {w : Worker} {r : Req} {rest : List String}
    (hd : m.data = "done" :: r.jobId :: "OK" :: rest) (hp : Spec.Processing m.identity w r s) :
    ∃ s' more, step cfg env m s = .ok () s' ∧ heldJobs s = r.jobId ::ₘ heldJobs s' ∧
      s'.outs = ⟨"status_notifier", "",
        ["type", "job-status", "id", r.jobId, "status", "OK"]⟩ :: more ∧
      more.length ≤ 1 ∧ ∀ o ∈ more, Spec.isEvalTo m.identity o = true := by
  obtain ⟨s', evs, hs, hi, hf, hds⟩ := done_report (cfg := cfg) (env := env) hr.inv.1 hk hd hp
  obtain ⟨hw, hb⟩ := (processing_iff hr.inv.1).1 hp
  have hheld := hi.heldJobs_eq
  have hout := hi.outs
  have hshape := hi.script.shape
  have hi0 := hi
  clear hi
  cases hds with
  | failed hst => simp at hst
  | adopted hst => simp at hst
  | exhausted hst => simp at hst
  | resent hst => simp at hst
  | parked hst => simp at hst
  | ignored hs' hst => simp at hst
  | @ok t hst hn hstats =>
    refine ⟨s', msgsOf t, hs, ?_, ?_, ?_, ?_⟩
    · rw [← hheld (by
        intro e he
        cases hn with
        | none => simp at he; subst he; rfl
        | pull r' => simp at he; rcases he with rfl | rfl <;> rfl)]
      have : (t.map Ev.leaves).sum = 0 := by cases hn <;> simp [Ev.leaves]
      simp only [List.map_cons, List.sum_cons, Ev.leaves, this,
        add_zero, Multiset.map_singleton]
      rw [add_comm, Multiset.singleton_add]
    · rw [hout]; rfl
    · cases hn <;> simp [msgsOf, Ev.msgs]
    · cases hn with
      | none => simp [msgsOf]
      | pull r' =>
        intro o ho
        simp [msgsOf, Ev.msgs] at ho
        subst ho
        obtain ⟨_, _, g3, _⟩ := hr.gives hi0 (e := .pull w r') (by simp) rfl
        obtain ⟨x, hx⟩ := g3.frames
        simp [Spec.isEvalTo, Spec.isEval, sendMsg, hx, keyWorkers, (regFind_mem hw).2]

/-- **C30.** A worker unknown to the broker that introduces itself with the job it is processing and
    is not expired in the meantime, reports success after any number of other messages: the
    frontend is told once that the job is done, and the only other message is the next job for the
    worker.  (That any `ping` of an unknown worker makes it introduce itself is C11.) -/
theorem C30_recovery {cfg : HConfig} {env : Env} {h1 h2 : List (Tr Q)} {t : Tr Q} {s : HState Q}
    (hr : Run cfg env (h1 ++ t :: h2) s) {m : Msg} {j : String} {rest : List String}
    (hti : t.msg.key = "workers" ∧ t.msg.data.head? = some "init")
    (htj : Spec.currentJob t.msg.data = some j)
    (hunk : ¬ Spec.Registered t.msg.identity t.pre)
    (hreg : Spec.Registered t.msg.identity t.post)
    (hquiet : ∀ t' ∈ h2, Spec.fromWorker "init" t.msg.identity t' = false ∧
      Spec.fromWorker "done" t.msg.identity t' = false)
    (hstays : ∀ t' ∈ h2, Spec.Registered t.msg.identity t'.post)
    (hk : m.key = "workers") (hid : m.identity = t.msg.identity)
    (hd : m.data = "done" :: j :: "OK" :: rest) :
    ∃ s' more, step cfg env m s = .ok () s' ∧
      s'.outs = ⟨"status_notifier", "", ["type", "job-status", "id", j, "status", "OK"]⟩ :: more ∧
      more.length ≤ 1 ∧ ∀ o ∈ more, Spec.isEvalTo m.identity o = true := by
  obtain ⟨hr1, hs1, hr1'⟩ := hr.prefix
  obtain ⟨evs, hi⟩ := step_info hr1.inv.1 hs1
  obtain ⟨w, hw, hwid⟩ := hreg
  -- the new worker
  have hnew : ∃ e ∈ evs, e.registers = some w := by
    rcases hi.steps.mem_reg (hi.inv.mem_reg.1 hw) with h | h
    · exact absurd ⟨w, hr1.inv.1.mem_reg.2 h, hwid⟩ hunk
    · exact h
  obtain ⟨e, he, hre⟩ := hnew
  obtain ⟨ds, hif⟩ := step_registers hi e he w hre
  have hws : t.post.workers = t.pre.workers ++ [w] := hif.new
  have honly : ∀ w' ∈ t.post.workers, w'.identity = t.msg.identity → w' = w := by
    intro w' hw' hid'
    rw [hws] at hw'
    rcases List.mem_append.1 hw' with h | h
    · exact absurd ⟨w', h, hid'⟩ hunk
    · simpa using h
  -- its job
  have hbusy : ∃ r, r.jobId = j ∧ (w, r) ∈ busy t.post.queue := by
    have hdat : t.msg.data = "init" :: w.hwgroup :: ds := hif.data
    obtain ⟨w2, hw2, _, _, hcur⟩ := init_registers (g := w.hwgroup) (fs := ds)
      (m := t.msg) (cfg := cfg) (env := env) hr1 hti.1 hdat hs1
      (by
        intro w' hw'
        exact absurd ⟨w', List.mem_of_find?_eq_some hw', by
          simpa using List.find?_some hw'⟩ hunk)
    rw [hws] at hw2
    have : w2 = w := by simpa using (List.append_cancel_left hw2).symm
    subst this
    obtain ⟨r, hc, hj⟩ := hcur j htj
    exact ⟨r, hj, ((LawfulQM.current hi.inv.qinv (hi.inv.mem_reg.1 hw)).2 r).1 hc⟩
  obtain ⟨r, rfl, hb⟩ := hbusy
  have key : w ∈ s.workers ∧ (∀ w' ∈ s.workers, w'.identity = t.msg.identity → w' = w) ∧
      (w, r) ∈ busy s.queue := by
    have hr' : Run cfg env ((h1 ++ [t]) ++ h2) s := by simpa using hr
    refine Run.induct_after (P := fun _ s => w ∈ s.workers ∧
      (∀ w' ∈ s.workers, w'.identity = t.msg.identity → w' = w) ∧ (w, r) ∈ busy s.queue) hr' ?_ ?_
    · intro s2 hr2
      have : s2 = t.post := hr2.last
      subst this
      exact ⟨hw, honly, hb⟩
    · intro h' t' h'' hh2 hrt hst ⟨p1, p2, p3⟩
      have ht' : t' ∈ h2 := by rw [hh2]; simp
      obtain ⟨evs', hi'⟩ := step_info hrt.inv.1 hst
      obtain ⟨q1, q2⟩ := hquiet t' ht'
      have hfrom : ∀ c, Spec.fromWorker c t.msg.identity t' = false →
          ¬ (t'.msg.key = keyWorkers ∧ t'.msg.identity = t.msg.identity ∧
            t'.msg.data.head? = some c) := by
        intro c hc hx
        simp [Spec.fromWorker, hx.1, hx.2.1, hx.2.2, keyWorkers] at hc
      have hback : ∀ w', w'.identity = t.msg.identity → w' ∈ t'.post.workers →
          w' ∈ t'.pre.workers := by
        intro w' hid' hw'
        refine hi'.was_registered hrt.inv.1 ?_ hw'
        rw [hid']
        exact hfrom "init" q1
      obtain ⟨w', hw', hid'⟩ := hstays t' ht'
      have hww := p2 w' (hback w' hid' hw') hid'
      subst hww
      refine ⟨hw', fun w2 hw2 hid2 => p2 w2 (hback w2 hid2 hw2) hid2, ?_⟩
      refine hi'.keeps hrt.inv.1 p3 ?_ hw'
      rintro ⟨x1, x2, x3⟩
      rw [hwid] at x2
      rcases x3 with x3 | x3
      · exact hfrom "done" q2 ⟨x1, x2, x3⟩
      · exact hfrom "init" q1 ⟨x1, x2, x3⟩
  obtain ⟨k1, k2, k3⟩ := key
  have hfind : regFind m.identity s.workers = some w := by
    cases hf : regFind m.identity s.workers with
    | none =>
      rw [regFind, List.find?_eq_none] at hf
      exact absurd (hwid.trans hid.symm) (by simpa using hf w k1)
    | some w' =>
      obtain ⟨f1, f2⟩ := regFind_mem hf
      rw [k2 w' f1 (f2.trans hid)]
  obtain ⟨s', more, a1, _, a3, a4, a5⟩ := C30_done_ok (cfg := cfg) (env := env) hr hk hd
    ((processing_iff hr.inv.1).2 ⟨hfind, k3⟩)
  exact ⟨s', more, a1, a3, a4, a5⟩

/-! ## C15 -/

/-- **C15, partial.** As long as no worker introduced itself with other headers than the ones it is
    known by (which the broker reports to the frontend as an error), identities are unique.  Missing
    compared to the full statement: the case of a changed `init`, where it is false (see
    `C15_refuted`). -/
theorem C15_partial {cfg : HConfig} {env : Env} {h : List (Tr Q)} {s : HState Q}
    (hr : Run cfg env h s) (hc : (emitted h).countP Spec.isInitConflict = 0) :
    (s.workers.map (·.identity)).Nodup := by
  revert hc
  refine Run.induct (P := fun h s => (emitted h).countP Spec.isInitConflict = 0 →
    (s.workers.map (·.identity)).Nodup) ?_ ?_ hr
  · intro _; simp [HState.init]
  · intro h s m s' evs hr hinv _ ih hs hi hc
    have h4 : emitted (h ++ [⟨s, m, s'⟩]) = emitted h ++ s'.outs := by simp [emitted, Tr.outs]
    rw [h4, List.countP_append] at hc
    have ih := ih (by omega)
    by_cases hreg : ∃ e ∈ evs, ∃ w, e.registers = some w
    · obtain ⟨e, he, w, hre⟩ := hreg
      obtain ⟨ds, hif⟩ := step_registers hi e he w hre
      have hws : s'.workers = s.workers ++ [w] := hif.new
      rw [hws, List.map_append, List.nodup_append]
      refine ⟨ih, by simp, ?_⟩
      have hk : m.key = keyWorkers := hif.key
      have hdat : m.data = "init" :: w.hwgroup :: ds := hif.data
      have hscr := hi.script.init_inv hk (by rw [hdat]; rfl)
      have hwsh : (({ s with outs := [] } : HState Q).heard cfg m.identity).workers = s.workers := by
        rw [heard_frame]
      have conf : ∀ {text : String} {t : List Ev},
          evs = .say ⟨keyNotifier, "", ["type", "error", "message", text]⟩ :: t → False := by
        intro text t hevs
        have : 0 < s'.outs.countP Spec.isInitConflict := by
          rw [hi.outs, hevs]
          simp [msgsOf, Ev.msgs, Spec.isInitConflict, keyNotifier]
        omega
      intro a ha b hb hab
      simp only [List.mem_singleton, List.map_cons, List.map_nil] at hb
      subst hb
      obtain ⟨w', hw', rfl⟩ := List.mem_map.1 ha
      cases hscr with
      | short => simp at he
      | same => simp at he
      | fresh hm hw hn hf hr =>
        rw [hwsh, regFind, List.find?_eq_none] at hw
        have := hw w' hw'
        simp only [beq_iff_eq] at this
        exact this (hab.trans hif.identity.symm)
      | again hm hw hne hn hf hr => exact conf rfl
    · have hsub : ∀ w ∈ s'.workers, w ∈ s.workers := by
        intro w hw
        rcases hi.steps.mem_reg (hi.inv.mem_reg.1 hw) with h1 | ⟨e, he, h1⟩
        · exact hinv.mem_reg.2 h1
        · exact absurd ⟨e, he, w, h1⟩ hreg
      have hinj : ∀ a ∈ s.workers, ∀ b ∈ s.workers, a.identity = b.identity → a = b := by
        intro a ha b hb hab
        exact List.inj_on_of_nodup_map ih ha hb hab
      refine List.Nodup.map_on (fun a ha b hb hab => hinj a (hsub a ha) b (hsub b hb) hab) ?_
      exact List.Nodup.of_map _ hi.inv.addr_nodup

/-- **C15 is false.** Two `init` messages of one identity with different headers leave two workers
    with the same identity. -/
theorem C15_refuted : ¬ ∀ (h : List (Tr Single)) (s : HState Single), Run cfg0 env0 h s →
    (s.workers.map Worker.identity).Nodup := by
  obtain ⟨h, s, hr, hp⟩ := exists_run (Q := Single) (cfg := cfg0) (env := env0)
    [fromW "w1" ["init", "group", "env=c"], fromW "w1" ["init", "group", "env=java"]]
    (fun _ s => !decide ((s.workers.map Worker.identity).Nodup)) (by decide +kernel)
  intro H
  simp [H h s hr] at hp

/-- The same for the other queue manager. -/
theorem C15_refuted_multi : ¬ ∀ (h : List (Tr Multi)) (s : HState Multi), Run cfg0 env0 h s →
    (s.workers.map Worker.identity).Nodup := by
  obtain ⟨h, s, hr, hp⟩ := exists_run (Q := Multi) (cfg := cfg0) (env := env0)
    [fromW "w1" ["init", "group", "env=c"], fromW "w1" ["init", "group", "env=java"]]
    (fun _ s => !decide ((s.workers.map Worker.identity).Nodup)) (by decide +kernel)
  intro H
  simp [H h s hr] at hp

/-! ## C45 -/

/-- **C45, partial.** In a step that removes at most one worker every message for a worker is
    addressed to an identity that is registered afterwards, or it is `intro`.  Missing compared to
    the full statement: ticks in which several workers expire, where it is false (see
    `C45_refuted`). -/
theorem C45_partial {cfg : HConfig} {env : Env} {h1 h2 : List (Tr Q)} {t : Tr Q} {s : HState Q}
    (hr : Run cfg env (h1 ++ t :: h2) s)
    (hone : t.pre.workers.length ≤ t.post.workers.length + 1) {o : Msg} (ho : o ∈ t.outs)
    (hk : o.key = "workers") :
    o.data = ["intro"] ∨ Spec.Registered o.identity t.post := by
  obtain ⟨hr1, hs, _⟩ := hr.prefix
  obtain ⟨evs, hi⟩ := step_info hr1.inv.1 hs
  by_cases hev : Spec.isEval o = true
  · have ho' : o ∈ msgsOf evs := by rw [← hi.outs]; exact ho
    obtain ⟨e, he, hoe⟩ := List.mem_flatMap.1 ho'
    right
    have gives : ∀ {w r}, e.gives = some (w, r) → Spec.Registered o.identity t.post := by
      intro w r hg
      have hms : e.msgs = [sendMsg w r] := by cases e <;> simp_all [Ev.gives, Ev.msgs]
      rw [hms] at hoe
      have := List.mem_singleton.1 hoe
      subst this
      exact ⟨w, hi.receiver hr1.inv.1 hone he hg, rfl⟩
    cases e with
    | send w r => exact gives rfl
    | pull w r => exact gives rfl
    | say m =>
      exfalso
      have : o = m := by simpa [Ev.msgs] using hoe
      subst this
      cases hi.script.shape _ he with
      | client _ hm => rw [hk] at hm; exact absurd hm (by decide)
      | monitor h => exact absurd (hk.symm.trans h.1) (by decide)
      | worker _ hm hid hc hd => rcases hd with hd | hd <;> simp [Spec.isEval, hd] at hev
      | error _ hm => rw [hk] at hm; exact absurd hm (by decide)
    | resend w r =>
      exfalso
      obtain ⟨L1, L2, hst, _⟩ := hr1.step_prov hi _ he
      cases hst with
      | resend _ _ hb hc hf =>
        have : o = sendMsg w r := by simpa [Ev.msgs] using hoe
        subst this
        simp [Spec.isEval, sendMsg, hf] at hev
    | done w r => have : o = okMsg r.jobId := by simpa [Ev.msgs] using hoe
                  subst this; exact absurd (show keyNotifier = "workers" from hk) (by decide)
    | failed w r text => have : o = failMsg r.jobId text := by simpa [Ev.msgs] using hoe
                         subst this; exact absurd (show keyNotifier = "workers" from hk) (by decide)
    | giveUp r text => have : o = failMsg r.jobId text := by simpa [Ev.msgs] using hoe
                       subst this; exact absurd (show keyNotifier = "workers" from hk) (by decide)
    | drop => simp [Ev.msgs] at hoe
    | accept r => simp [Ev.msgs] at hoe
    | register w cur => simp [Ev.msgs] at hoe
    | park r => simp [Ev.msgs] at hoe
    | cancel w r => simp [Ev.msgs] at hoe
    | expire w c q => simp [Ev.msgs] at hoe
  · obtain ⟨tk, tid, hcase⟩ := (C10_addressing hr ho).2.2.2.2 hk (by simpa using hev)
    rcases hcase with ⟨hp, hd⟩ | ⟨hinit, hd⟩
    · obtain ⟨s2, hs2, hb, hy, hn⟩ := C11_ping (cfg := cfg) (env := env) hr1 tk hp
      rw [hs] at hs2
      cases hs2
      by_cases hreg : Spec.Registered t.msg.identity t.pre
      · right
        obtain ⟨w, hw, hid⟩ := hreg
        refine ⟨w, ?_, hid.trans tid.symm⟩
        rw [hb.rest]; exact hw
      · left
        have := hn hreg
        rw [Tr.outs, this] at ho
        simp at ho
        rw [ho]
    · right
      have hscr := hi.script.init_inv tk hinit
      have hh := hi.outs
      have : t.outs = t.post.outs := rfl
      have houts := heard_outs (Q := Q) cfg t.msg.identity t.pre
      rw [Tr.outs] at ho
      have reg : ∀ {w : Worker}, RegFrame (({ t.pre with outs := [] } : HState Q).heard cfg
          t.msg.identity) t.post w → w.identity = t.msg.identity →
          Spec.Registered o.identity t.post := by
        intro w hf hid
        exact ⟨w, by rw [hf.workers]; simp, hid.trans tid.symm⟩
      cases hscr with
      | short => rw [hh] at ho; simp [msgsOf] at ho
      | same => rw [hh] at ho; simp [msgsOf] at ho
      | fresh hm hw hn hf hr => exact reg hf (Worker.create_fields hn.created).2.1
      | again hm hw hne hn hf hr => exact reg hf (Worker.create_fields hn.created).2.1

/-- **C45 is false.** Two workers expire in the same tick: the job of the first is given to the second,
    which is removed right afterwards. -/
theorem C45_refuted : ¬ ∀ (h1 h2 : List (Tr Single)) (t : Tr Single) (s : HState Single),
    Run cfg0 env0 (h1 ++ t :: h2) s → t.msg.key = "timer" → ∀ o ∈ t.outs, Spec.isEval o = true →
    Spec.Registered o.identity t.post := by
  obtain ⟨h1, t, h2, s, hr, _, hm, _, hp⟩ := exists_split (Q := Single) (cfg := cfg0) (env := env0)
    [fromW "w1" ["init", "group", "env=c"], fromW "w2" ["init", "group", "env=c"],
     fromW "w1" ["ping"], fromW "w2" ["ping"], fromC "client" ["eval", "J1", "env=c", "", "x"],
     tick "1001", tick "1001", tick "1001"] (tick "1001") []
    (fun t _ => t.post.workers.isEmpty && t.outs.any Spec.isEval) (by decide +kernel)
  intro H
  simp only [Bool.and_eq_true, List.isEmpty_iff, List.any_eq_true] at hp
  obtain ⟨hw, o, ho, he⟩ := hp
  obtain ⟨w, hw', _⟩ := H h1 h2 t s hr (by rw [hm]; rfl) o ho he
  rw [hw] at hw'
  simp at hw'

/-- The same for the other queue manager. -/
theorem C45_refuted_multi : ¬ ∀ (h1 h2 : List (Tr Multi)) (t : Tr Multi) (s : HState Multi),
    Run cfg0 env0 (h1 ++ t :: h2) s → t.msg.key = "timer" → ∀ o ∈ t.outs, Spec.isEval o = true →
    Spec.Registered o.identity t.post := by
  obtain ⟨h1, t, h2, s, hr, _, hm, _, hp⟩ := exists_split (Q := Multi) (cfg := cfg0) (env := env0)
    [fromW "w1" ["init", "group", "env=c"], fromC "client" ["eval", "J1", "env=c", "", "x"],
     fromW "w2" ["init", "group", "env=c"], fromW "w1" ["ping"], fromW "w2" ["ping"],
     tick "1001", tick "1001", tick "1001"] (tick "1001") []
    (fun t _ => t.post.workers.isEmpty && t.outs.any Spec.isEval) (by decide +kernel)
  intro H
  simp only [Bool.and_eq_true, List.isEmpty_iff, List.any_eq_true] at hp
  obtain ⟨hw, o, ho, he⟩ := hp
  obtain ⟨w, hw', _⟩ := H h1 h2 t s hr (by rw [hm]; rfl) o ho he
  rw [hw] at hw'
  simp at hw'

/-! ## C29 -/

/-- The claim of C29 for the evaluation request right after the changed `init`: a job given to the
    identity is one the new declaration can process. -/
def ReRegistrationReplaces (Q : Type) [QueueManager Q] : Prop :=
  ∀ (h : List (Tr Q)) (t t' : Tr Q) (s : HState Q), Run cfg0 env0 (h ++ t :: [t']) s →
    ∀ (g : String) (fs : List String) (j : String) (xs : List String),
    Spec.Registered t.msg.identity t.pre → t.msg.key = "workers" →
    t.msg.data = "init" :: g :: fs → t'.msg.key = "clients" → t'.msg.data = "eval" :: j :: xs →
    (∃ o ∈ t'.outs, Spec.isEvalTo t.msg.identity o = true ∧ Spec.isEvalOf j o = true) →
    Spec.Capable g (Spec.headerFrames fs) (Spec.headerFrames xs)

theorem not_capable_env : ¬ Spec.Capable "group" (Spec.headerFrames ["env=java"])
    (Spec.headerFrames ["env=c", "", "x"]) := by
  intro h
  have h1 : Spec.frameKey "env=c" = "env" := by decide +kernel
  have h2 : Spec.frameValue "env=c" = "c" := by decide +kernel
  have h3 : Spec.frameValue "env=java" = "java" := by decide +kernel
  rcases h "env=c" (by decide +kernel) (by decide +kernel) with ⟨hk, _⟩ | ⟨hk, _⟩ | ⟨_, d, hd, _, hv⟩
  · rw [h1] at hk; exact absurd hk (by decide)
  · rw [h1] at hk; exact absurd hk (by decide)
  · have hd' : d ∈ ["env=java"] := hd
    have := List.mem_singleton.1 hd'
    subst this
    rw [h2, h3] at hv
    exact absurd hv (by decide)

theorem not_capable_group : ¬ Spec.Capable "new" (Spec.headerFrames ["env=c"])
    (Spec.headerFrames ["hwgroup=old", "", "x"]) := by
  intro h
  have h1 : Spec.frameKey "hwgroup=old" = "hwgroup" := by decide +kernel
  have h2 : Spec.frameValue "hwgroup=old" = "old" := by decide +kernel
  rcases h "hwgroup=old" (by decide +kernel) (by decide +kernel) with
    ⟨_, hv⟩ | ⟨hk, _⟩ | ⟨_, d, hd, hk, _⟩
  · rw [h2] at hv
    obtain ⟨_, pre, post, he, hpre, hpost, _⟩ := hv
    have hl := congrArg List.length he
    simp only [List.length_append] at hl
    have l1 : "old".toList.length = 3 := by decide
    have l2 : "new".toList.length = 3 := by decide
    rw [l1, l2] at hl
    have p1 : pre = [] := List.length_eq_zero_iff.1 (by omega)
    have p2 : post = [] := List.length_eq_zero_iff.1 (by omega)
    rw [p1, p2] at he
    exact absurd he (by decide)
  · rw [h1] at hk; exact absurd hk (by decide)
  · have hd' : d ∈ ["env=c"] := hd
    have := List.mem_singleton.1 hd'
    subst this
    rw [h1] at hk
    exact absurd hk (by decide +kernel)

/-- **C29 is false**, changed headers: the broker still gives the worker jobs it can no longer
    process. -/
theorem C29_refuted : ¬ ReRegistrationReplaces Single := by
  obtain ⟨h1, t, h2, s, hr, _, hm, hm2, hp⟩ := exists_split (Q := Single) (cfg := cfg0) (env := env0)
    [fromW "w1" ["init", "group", "env=c"]] (fromW "w1" ["init", "group", "env=java"])
    [fromC "client" ["eval", "J1", "env=c", "", "x"]]
    (fun t s => t.pre.workers.any (fun w => w.identity == "w1") &&
      s.outs.any (fun o => Spec.isEvalTo "w1" o && Spec.isEvalOf "J1" o)) (by decide +kernel)
  intro H
  obtain ⟨t', rfl, hm3⟩ := List.map_eq_singleton_iff.1 hm2
  have hs : s = t'.post := by
    have : Run cfg0 env0 ((h1 ++ [t]) ++ [t']) s := by simpa using hr
    exact this.last
  simp only [Bool.and_eq_true, List.any_eq_true, beq_iff_eq] at hp
  obtain ⟨⟨w, hw, hwi⟩, o, ho, he1, he2⟩ := hp
  have hid : t.msg.identity = "w1" := by rw [hm]; rfl
  refine not_capable_env (H h1 t t' s hr "group" ["env=java"] "J1" ["env=c", "", "x"]
    ⟨w, hw, hwi.trans hid.symm⟩ (by rw [hm]; rfl) (by rw [hm]; rfl) (by rw [hm3]; rfl)
    (by rw [hm3]; rfl) ⟨o, ?_, ?_, he2⟩)
  · rw [Tr.outs, ← hs]; exact ho
  · rw [hid]; exact he1

/-- **C29 is false**, changed hardware group: the broker ignores the change. -/
theorem C29_refuted_hwgroup : ¬ ReRegistrationReplaces Multi := by
  obtain ⟨h1, t, h2, s, hr, _, hm, hm2, hp⟩ := exists_split (Q := Multi) (cfg := cfg0) (env := env0)
    [fromW "w1" ["init", "old", "env=c"]] (fromW "w1" ["init", "new", "env=c"])
    [fromC "client" ["eval", "J1", "hwgroup=old", "", "x"]]
    (fun t s => t.pre.workers.any (fun w => w.identity == "w1") &&
      s.outs.any (fun o => Spec.isEvalTo "w1" o && Spec.isEvalOf "J1" o)) (by decide +kernel)
  intro H
  obtain ⟨t', rfl, hm3⟩ := List.map_eq_singleton_iff.1 hm2
  have hs : s = t'.post := by
    have : Run cfg0 env0 ((h1 ++ [t]) ++ [t']) s := by simpa using hr
    exact this.last
  simp only [Bool.and_eq_true, List.any_eq_true, beq_iff_eq] at hp
  obtain ⟨⟨w, hw, hwi⟩, o, ho, he1, he2⟩ := hp
  have hid : t.msg.identity = "w1" := by rw [hm]; rfl
  refine not_capable_group (H h1 t t' s hr "new" ["env=c"] "J1" ["hwgroup=old", "", "x"]
    ⟨w, hw, hwi.trans hid.symm⟩ (by rw [hm]; rfl) (by rw [hm]; rfl) (by rw [hm3]; rfl)
    (by rw [hm3]; rfl) ⟨o, ?_, ?_, he2⟩)
  · rw [Tr.outs, ← hs]; exact ho
  · rw [hid]; exact he1

/-- **C29, partial.** After an `init` from a known identity with different headers (and numbers in
    its `threads` headers) every request the new declaration can process is accepted unless the
    broker is frozen.  Missing compared to the full statement: that jobs which only the old
    declaration can process are no longer given to the worker (false, see `C29_refuted`), and changes
    of the hardware group alone (ignored, see `C29_refuted_hwgroup`). -/
theorem C29_new_declaration_counts_partial {cfg : HConfig} {env : Env} {h : List (Tr Q)}
    {t : Tr Q} {s s' : HState Q} {m : Msg} (hr : Run cfg env (h ++ [t]) s)
    (hk : t.msg.key = "workers") {g : String} {fs : List String}
    (hd : t.msg.data = "init" :: g :: fs)
    (hnew : ∀ w, t.pre.workers.find? (fun w => w.identity == t.msg.identity) = some w →
      ∃ k, (w.headers.filter (fun e => e.1 == k)).map (·.2) ≠ Spec.declared k fs)
    (hfr : Spec.frozenAfter ((h ++ [t]).map (·.msg)) = false)
    {j : String} {xs : List String} (hmk : m.key = "clients") (hmd : m.data = "eval" :: j :: xs)
    (hdel : "" ∈ xs) (hs : step cfg env m s = .ok () s')
    (hcap : Spec.Capable g (Spec.headerFrames fs) (Spec.headerFrames xs)) :
    Spec.accepts j (⟨s, m, s'⟩ : Tr Q) = true := by
  obtain ⟨hr1, hs1, _⟩ := Run.prefix (h2 := []) hr
  have hlast := hr.last
  subst hlast
  obtain ⟨w, hw, hfresh, hdesc, _⟩ := init_registers hr1 hk hd hs1 hnew
  refine (C08_acceptance hr hmk hmd hdel hs).2 ⟨hfr, t, by simp, w, fs, ⟨hk, hdesc.identity.symm, ?_, ?_, ?_⟩, ?_, ?_⟩
  · rw [hdesc.hwgroup]; exact hd
  · intro hm'; exact hfresh (List.mem_map.2 ⟨w, hm', rfl⟩)
  · rw [hw]; simp
  · rw [hw]; simp
  · rw [hdesc.hwgroup]; exact hcap

/-! ## Concrete histories meeting the hypotheses -/

/-- C28: the worker repeats its `init` with the header names in another order. -/
example : ∃ (h : List (Tr Single)) (s : HState Single), Run cfg0 env0 h s ∧
    (s.workers.map (·.identity) == ["w1"] && s.outs == [] && decide (h.length = 2)) = true :=
  exists_run [fromW "w1" ["init", "group", "env=c", "threads=4", "env=java"],
    fromW "w1" ["init", "group", "threads=4", "env=c", "env=java", "", "description=x"]] _
    (by decide +kernel)

/-- C28, the other case: two values of one header swapped. -/
example : ∃ (h : List (Tr Multi)) (s : HState Multi), Run cfg0 env0 h s ∧
    (s.workers.map (·.identity) == ["w1", "w1"] && decide (h.length = 2)) = true :=
  exists_run [fromW "w1" ["init", "group", "env=c", "threads=4", "env=java"],
    fromW "w1" ["init", "group", "threads=4", "env=java", "env=c"]] _
    (by decide +kernel)

/-- C47: a worker that announces a description and a job. -/
example : ∃ (h : List (Tr Single)) (s : HState Single), Run cfg0 env0 h s ∧
    (s.workers.map (fun w => (w.identity, w.hwgroup, w.headers, w.description)) ==
        [("w1", "group", [("env", "c"), ("threads", "4")], "my=box")] &&
      s.queue.current.map (fun p => p.2.map (·.jobId)) == [some "J7"]) = true :=
  exists_run [fromW "w1" ["init", "group", "threads=4", "env=c", "", "description=my=box",
    "current_job=J7"]] _ (by decide +kernel)

/-- C48: three internal errors in a row for a job with three allowed failures; the first two keep
    it, the third gives it up. -/
example : ∃ (h : List (Tr Single)) (s : HState Single), Run cfg0 env0 h s ∧
    ((h.map (fun t => t.outs.countP (Spec.isFailed "J1"))) == [0, 0, 0, 0, 1]) = true :=
  exists_run [fromW "w1" ["init", "group", "env=c"], fromC "client" ["eval", "J1", "env=c", "", "x"],
    fromW "w1" ["done", "J1", "INTERNAL_ERROR", "disk"],
    fromW "w1" ["done", "J1", "INTERNAL_ERROR", "disk"],
    fromW "w1" ["done", "J1", "INTERNAL_ERROR", "disk"]] _ (by decide +kernel)

/-- C30: the worker pings, is asked to introduce itself, does so with its job, pings and reports. -/
def recoveryMsgs : List Msg :=
  [fromW "w1" ["ping"], fromW "w1" ["init", "group", "env=c", "", "current_job=J1"],
   fromC "client" ["eval", "J2", "env=c", "", "x"], fromW "w1" ["ping"], tick "500",
   fromW "w1" ["done", "J1", "OK"]]

/-- What happens in that history. -/
def recoveryCheck {Q : Type} (h : List (Tr Q)) : Bool :=
  (h.map (fun t => t.outs)).drop 3 ==
    [[⟨"workers", "w1", ["pong"]⟩], [],
     [⟨"status_notifier", "", ["type", "job-status", "id", "J1", "status", "OK"]⟩,
      ⟨"workers", "w1", ["eval", "J2", "x"]⟩]] &&
  ((h.map (fun t => t.outs)).take 1 == [[⟨"workers", "w1", ["intro"]⟩]])

example : ∃ h s, Run (Q := Single) cfg0 env0 h s ∧ recoveryCheck h = true :=
  exists_run recoveryMsgs (fun h _ => recoveryCheck h) (by decide +kernel)

example : ∃ h s, Run (Q := Multi) cfg0 env0 h s ∧ recoveryCheck h = true :=
  exists_run recoveryMsgs (fun h _ => recoveryCheck h) (by decide +kernel)

/-- C15 and C45: two workers; one expires alone and its job goes to the other. -/
example : ∃ h s, Run (Q := Single) cfg0 env0 h s ∧
    (decide ((emitted h).countP Spec.isInitConflict = 0) &&
      (s.outs.countP (Spec.isEvalTo "w2") == 1) && (s.workers.map (·.identity) == ["w2"])) = true :=
  exists_run [fromW "w1" ["init", "group", "env=c"], fromC "client" ["eval", "J1", "env=c", "", "x"],
    fromW "w2" ["init", "group", "env=c"], fromW "w1" ["ping"],
    tick "1001", tick "1001", fromW "w2" ["ping"], tick "1001", tick "1001"] _ (by decide +kernel)

end Broker
