import Verif.Proof.Loop
import Verif.Proof.Reports
import Verif.Proof.Ops
import Verif.Spec.Exec

/-!
# Messages without frames, and executions of the process
-/

set_option linter.unusedSectionVars false

namespace Broker

variable {Q : Type} [QueueManager Q]

/-! ## Concrete executions of the process -/

/-- Executes a list of events. -/
def Sys.exec (cfg : HConfig) (env : Env) (e : SysEnv) : List SysEv → Sys Q → Option (Sys Q)
  | [], s => some s
  | ev :: t, s => (s.next cfg env e ev).bind (Sys.exec cfg env e t)

theorem SRun.exec {cfg : HConfig} {env : Env} {e : SysEnv} : ∀ {evs2 : List SysEv} {evs1 : List SysEv}
    {s s' : Sys Q}, SRun cfg env e evs1 s → Sys.exec cfg env e evs2 s = some s' →
    SRun cfg env e (evs1 ++ evs2) s' := by
  intro evs2
  induction evs2 with
  | nil => intro evs1 s s' hr h; cases h; simpa using hr
  | cons ev t ih =>
    intro evs1 s s' hr h
    simp only [Sys.exec, Option.bind_eq_some_iff] at h
    obtain ⟨s1, h1, h2⟩ := h
    have := ih (SRun.snoc hr h1) h2
    simpa using this

/-- A list of events that can be executed and leads to a state with the property. -/
theorem exists_srun {cfg : HConfig} {env : Env} {e : SysEnv} (evs : List SysEv) (p : Sys Q → Bool)
    (h : (Sys.exec cfg env e evs (Sys.init Q)).any p = true) :
    ∃ s : Sys Q, SRun cfg env e evs s ∧ p s = true := by
  cases hx : Sys.exec cfg env e evs (Sys.init Q) with
  | none => rw [hx] at h; simp at h
  | some s =>
    rw [hx] at h
    refine ⟨s, ?_, by simpa using h⟩
    have := SRun.exec (SRun.nil (cfg := cfg) (env := env) (e := e) (Q := Q)) hx
    simpa using this

variable [LawfulQM Q]

/-! ## Messages without frames -/

theorem RegScript.resend_cur {w w' : Worker} {cur : Option Req} {r : Req} {evs : List Ev}
    (h : RegScript w cur evs) (he : Ev.resend w' r ∈ evs) : cur = some r := by
  cases h with
  | plain => simp at he
  | pull => simp at he
  | resend r hc => simp at he; rw [hc, he.2]

/-- A request is sent again only to a worker that registers with it. -/
theorem resend_adopts {cfg : HConfig} {env : Env} {m : Msg} {s s' : HState Q} {evs : List Ev}
    (hi : StepInfo cfg env m s s' evs) {w : Worker} {r : Req} (he : Ev.resend w r ∈ evs) :
    Spec.adopts r.jobId ⟨s, m, s'⟩ = true := by
  have hsh := hi.script.shape _ he
  obtain ⟨hk, -, hd⟩ := hsh
  have main : ∀ {s1 : HState Q} {i g c : String} {rest : List String} {w0 : Worker} {cur : Option Req}
      {evs' : List Ev}, s1.workers.length = s.workers.length → m.data = c :: g :: rest →
      NewWorker s1 env i g (initHeaders rest []).1 (initHeaders rest []).2 w0 cur →
      RegFrame s1 s' w0 → RegScript w0 cur evs' → Ev.resend w r ∈ evs' →
      Spec.adopts r.jobId ⟨s, m, s'⟩ = true := by
    intro s1 i g c rest w0 cur evs' hl hm hn hf hr he'
    have hc := hr.resend_cur he'
    have hlen : s.workers.length < s'.workers.length := by
      rw [hf.workers, ← hl]; simp
    have : Spec.adopts r.jobId ⟨s, m, s'⟩ = (Spec.currentJob m.data == some r.jobId) := by
      simp [Spec.adopts, hk, hd, keyWorkers, hlen]
    rw [this, hm, currentJob_eq]
    have hcur := hn.cur_eq
    rw [hc] at hcur
    cases ho : (initExtra (initHeaders rest []).2 "" none).2 with
    | none => rw [ho] at hcur; simp at hcur
    | some j =>
      rw [ho] at hcur
      simp at hcur
      simp [hcur, Req.incomplete]
  cases hi.script with
  | init hk' hd' h =>
    cases h with
    | short => simp at he
    | same => simp at he
    | fresh hm hw hn hf hr => exact main (by rw [heard_workers]) hm hn hf hr he
    | again hm hw hne hn hf hr =>
      exact main (by rw [heard_workers]) hm hn hf hr (by simpa using he)
  | done hk' hd' => rw [hd'] at hd; simp at hd
  | ping hk' hd' => rw [hd'] at hd; simp at hd
  | progress hk' hd' => rw [hd'] at hd; simp at hd
  | workerUnknown hk' hd' hc => simp at he
  | eval hk' => exact absurd (hk.symm.trans hk') keys_ne.1
  | stats hk' => exact absurd (hk.symm.trans hk') keys_ne.1
  | freeze hk' => exact absurd (hk.symm.trans hk') keys_ne.1
  | unfreeze hk' => exact absurd (hk.symm.trans hk') keys_ne.1
  | clientUnknown hk' => exact absurd (hk.symm.trans hk') keys_ne.1
  | timer hk' => exact absurd (hk'.symm.trans hk) keys_ne.2.2
  | other => simp at he

/-- A message without frames for a worker is sent only to a worker that registers with a job. -/
theorem Run.empty_to_worker {cfg : HConfig} {env : Env} {h1 h2 : List (Tr Q)} {t : Tr Q}
    {s : HState Q} (hr : Run cfg env (h1 ++ t :: h2) s) {o : Msg} (ho : o ∈ t.outs)
    (hk : o.key = keyWorkers) (hd : o.data = []) : ∃ j, Spec.adopts j t = true := by
  obtain ⟨hr1, hst, _⟩ := hr.prefix
  obtain ⟨evs, hi⟩ := step_info hr1.inv.1 hst
  have ho' : o ∈ t.post.outs := ho
  rw [hi.outs] at ho'
  obtain ⟨e, he, hm⟩ := List.mem_flatMap.1 ho'
  have hshape := hi.script.shape _ he
  have hsend : ∀ w r, o = sendMsg w r → e.gives = some (w, r) → False := by
    rintro w r rfl h
    obtain ⟨_, _, g3, _⟩ := hr1.gives hi he h
    obtain ⟨extra, hf⟩ := g3.frames
    simp [sendMsg, hf] at hd
  cases e with
  | say m =>
    simp only [Ev.msgs, List.mem_singleton] at hm
    subst hm
    cases hshape with
    | client _ hm => exact absurd (hk.symm.trans hm) (by decide)
    | monitor h => exact absurd (hk.symm.trans h.1) (by decide)
    | worker _ _ _ _ hc => rcases hc with h | h <;> rw [hd] at h <;> cases h
    | error _ hm => exact absurd (hk.symm.trans hm) (by decide)
  | send w r => exact (hsend w r (by simpa [Ev.msgs] using hm) rfl).elim
  | pull w r => exact (hsend w r (by simpa [Ev.msgs] using hm) rfl).elim
  | resend w r => exact ⟨_, resend_adopts hi he⟩
  | done w r =>
    simp only [Ev.msgs, List.mem_singleton] at hm
    subst hm
    exact absurd (show keyNotifier = keyWorkers from hk) (by decide)
  | failed w r x =>
    simp only [Ev.msgs, List.mem_singleton] at hm
    subst hm
    exact absurd (show keyNotifier = keyWorkers from hk) (by decide)
  | giveUp r x =>
    simp only [Ev.msgs, List.mem_singleton] at hm
    subst hm
    exact absurd (show keyNotifier = keyWorkers from hk) (by decide)
  | _ => simp [Ev.msgs] at hm

/-- Emitted messages come from a step or from the abnormal last one. -/
theorem SRun.emitted_cases {cfg : HConfig} {env : Env} {e : SysEnv} {evs : List SysEv} {s : Sys Q}
    (hr : SRun cfg env e evs s) {o : Msg} (ho : o ∈ s.emitted) :
    (∃ (h1 h2 : List (Tr Q)) (t : Tr Q), Run cfg env (h1 ++ t :: h2) s.h ∧ o ∈ t.outs ∧
      t.msg ∈ s.handled) ∨
    (∃ err m h', HInv s.h ∧ step cfg env m s.h = .error err h' ∧ o ∈ h'.outs ∧ m ∈ s.handled) := by
  obtain ⟨hist, crash, h1, h2, h3, h4⟩ := hr.refines
  rw [h3] at ho
  have hmem : ∀ m ∈ s.calls, m ∈ s.handled := by
    intro m hm
    rcases h4 with ⟨_, _, h⟩ | ⟨_, x, _, _, _, _, h⟩
    · rw [h] at hm; exact List.mem_of_mem_filter hm
    · have : m ∈ s.calls ++ [x] := List.mem_append_left _ hm
      rw [h] at this; exact List.mem_of_mem_filter this
  rcases List.mem_append.1 ho with h | h
  · left
    obtain ⟨t, ht, hot⟩ := List.mem_flatMap.1 h
    obtain ⟨a, b, rfl⟩ := List.append_of_mem ht
    exact ⟨a, b, t, h1, hot, hmem _ (by rw [← h2]; simp)⟩
  · right
    rcases h4 with ⟨_, hc, _⟩ | ⟨err, x, h', _, hs, hc, hx⟩
    · rw [hc] at h; simp at h
    · refine ⟨err, x, h', h1.inv.1, hs, by rw [← hc]; exact h, ?_⟩
      have : x ∈ s.calls ++ [x] := by simp
      rw [hx] at this; exact List.mem_of_mem_filter this

/-- A message without frames for the monitor answers a bare `progress`. -/
theorem SRun.empty_monitor {cfg : HConfig} {env : Env} {e : SysEnv} {evs : List SysEv} {s : Sys Q}
    (hr : SRun cfg env e evs s) {o : Msg} (ho : o ∈ s.emitted) (hk : o.key = keyMonitor)
    (hd : o.data = []) : ∃ m ∈ s.handled, Spec.bareProgress m := by
  have key : ∀ {b : Prop}, Spec.OutShape b o → b := by
    intro b h
    rcases h with h | h | h | h
    · exact absurd (hk.symm.trans h) (by decide)
    · exact absurd hd h.2
    · exact h.2.2 hd
    · exact absurd (hk.symm.trans h.1) (by decide)
  rcases hr.emitted_cases ho with ⟨h1, h2, t, hrun, hot, hm⟩ | ⟨err, m, h', _, hs, hot, hm⟩
  · obtain ⟨_, hst, _⟩ := hrun.prefix
    have := step_shapes cfg env t.msg t.pre
    rw [hst] at this
    exact ⟨t.msg, hm, key (this o hot)⟩
  · have := step_shapes cfg env m s.h
    rw [hs] at this
    exact ⟨m, hm, key (this o hot)⟩

/-- A message without frames for a worker goes to one that registered with a job. -/
theorem SRun.empty_workers {cfg : HConfig} {env : Env} {e : SysEnv} {evs : List SysEv} {s : Sys Q}
    (hr : SRun cfg env e evs s) {o : Msg} (ho : o ∈ s.emitted) (hk : o.key = keyWorkers)
    (hd : o.data = []) : ∃ (h1 h2 : List (Tr Q)) (t : Tr Q), Run cfg env (h1 ++ t :: h2) s.h ∧
      o ∈ t.outs ∧ t.msg ∈ s.handled ∧ ∃ j, Spec.adopts j t = true := by
  rcases hr.emitted_cases ho with ⟨h1, h2, t, hrun, hot, hm⟩ | ⟨err, m, h', hinv, hs, hot, hm⟩
  · exact ⟨h1, h2, t, hrun, hot, hm, hrun.empty_to_worker hot hk hd⟩
  · exact absurd hk (step_err_quiet hinv hs o hot)

theorem msgsFor_mem {k : String} {l : List Msg} {m : Msg} (h : m ∈ msgsFor k l) :
    m ∈ l ∧ m.key = k := by
  simpa [msgsFor] using h

/-- What a socket has been given, if no message for it lacks frames. -/
theorem SRun.socket {cfg : HConfig} {env : Env} {e : SysEnv} {evs : List SysEv} {s : Sys Q}
    (hr : SRun cfg env e evs s) {k : String} (hk : k ∈ brokerWiring.order)
    (hne : ∀ o ∈ s.emitted, o.key = k → o.data ≠ []) :
    s.socks k = ⟨none, (msgsFor k s.routed).map (fun m => (m.identity, m.data))⟩ := by
  rw [hr.socks hk, sendMessages_closed ?_ rfl]
  · simp [Router.fresh]
  · intro m hm
    obtain ⟨h1, h2⟩ := msgsFor_mem hm
    exact hne m (by rw [hr.inv.split]; exact List.mem_append_left _ h1) h2

end Broker
