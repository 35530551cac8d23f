import Verif.Proof.RefineTimer

/-! # Refinement of a whole step of the handler -/

set_option linter.unusedSectionVars false
set_option linter.unusedSimpArgs false

namespace Broker

open QueueManager LawfulQM

variable {Q : Type} [QueueManager Q] [LawfulQM Q]

/-- The state after noting that a worker was heard from. -/
def HState.heard (cfg : HConfig) (identity : String) (s : HState Q) : HState Q :=
  match regFind identity s.workers with
  | none => s
  | some w => { s with live := upd s.live w.addr cfg.maxLiveness, timers := s.timers.put w 0 }

omit [LawfulQM Q] [QueueManager Q] in
theorem touchWorker_eq (cfg : HConfig) (identity : String) (s : HState Q) :
    touchWorker cfg identity s = .ok () (s.heard cfg identity) := by
  unfold HState.heard
  simp only [touchWorker, bind, EStateM.bind, get, getThe, MonadStateOf.get, EStateM.get]
  cases regFind identity s.workers <;> rfl

theorem heard_frame (cfg : HConfig) (identity : String) (s : HState Q) :
    TickFrame s (s.heard cfg identity) := by
  unfold HState.heard TickFrame
  split <;> rfl

/-- What a step does, by case; `s0` is the state before with empty output. -/
inductive Script (cfg : HConfig) (env : Env) (m : Msg) (s0 s' : HState Q) : List Ev → Prop
  | init {rest : List String} {evs : List Ev} (hk : m.key = keyWorkers)
      (hd : m.data = "init" :: rest)
      (h : InitScript (s0.heard cfg m.identity) env m.identity m.data s' evs) :
    Script cfg env m s0 s' evs
  | done {rest : List String} {evs : List Ev} (hk : m.key = keyWorkers)
      (hd : m.data = "done" :: rest)
      (h : DoneCase cfg.maxFailures (s0.heard cfg m.identity) s' m.identity m.data evs) :
    Script cfg env m s0 s' evs
  | ping {rest : List String} (hk : m.key = keyWorkers) (hd : m.data = "ping" :: rest)
      (h : s' = { s0.heard cfg m.identity with
        outs := s0.outs ++ [⟨keyWorkers, m.identity,
          [if (regFind m.identity s0.workers).isSome then "pong" else "intro"]⟩] }) :
    Script cfg env m s0 s' [.say ⟨keyWorkers, m.identity,
          [if (regFind m.identity s0.workers).isSome then "pong" else "intro"]⟩]
  | progress {rest : List String} (hk : m.key = keyWorkers) (hd : m.data = "progress" :: rest)
      (h : s' = { s0.heard cfg m.identity with
        outs := s0.outs ++ [⟨keyMonitor, monitorIdentity, rest⟩] }) :
    Script cfg env m s0 s' [.say ⟨keyMonitor, monitorIdentity, rest⟩]
  | workerUnknown {c : String} {rest : List String} (hk : m.key = keyWorkers)
      (hd : m.data = c :: rest)
      (hc : c ≠ "init" ∧ c ≠ "done" ∧ c ≠ "ping" ∧ c ≠ "progress")
      (h : s' = s0.heard cfg m.identity) : Script cfg env m s0 s' []
  | eval {rest : List String} {evs : List Ev} (hk : m.key = keyClients)
      (hd : m.data = "eval" :: rest) (hf : Frame s0 s')
      (h : EvalScript s0 s' m.identity m.data evs) :
    Script cfg env m s0 s' evs
  | stats {rest : List String} (hk : m.key = keyClients) (hd : m.data = "get-runtime-stats" :: rest)
      (h : s' = { s0 with
        outs := s0.outs ++ [⟨keyClients, m.identity, statsReply s0.stats s0.frozen⟩] }) :
    Script cfg env m s0 s' [.say ⟨keyClients, m.identity, statsReply s0.stats s0.frozen⟩]
  | freeze {rest : List String} (hk : m.key = keyClients) (hd : m.data = "freeze" :: rest)
      (h : s' = { s0 with
        frozen := true, outs := s0.outs ++ [⟨keyClients, m.identity, ["ack"]⟩] }) :
    Script cfg env m s0 s' [.say ⟨keyClients, m.identity, ["ack"]⟩]
  | unfreeze {rest : List String} (hk : m.key = keyClients) (hd : m.data = "unfreeze" :: rest)
      (h : s' = { s0 with
        frozen := false, outs := s0.outs ++ [⟨keyClients, m.identity, ["ack"]⟩] }) :
    Script cfg env m s0 s' [.say ⟨keyClients, m.identity, ["ack"]⟩]
  | clientUnknown {c : String} {rest : List String} (hk : m.key = keyClients)
      (hd : m.data = c :: rest)
      (hc : c ≠ "eval" ∧ c ≠ "get-runtime-stats" ∧ c ≠ "freeze" ∧ c ≠ "unfreeze")
      (h : s' = s0) : Script cfg env m s0 s' []
  | timer {f : String} {rest : List String} {time : Int} {xs : List Worker} {evs : List Ev}
      (hk : m.key = keyTimer) (hd : m.data = f :: rest) (ht : stoll f = .ok time)
      (h : TimerCase cfg time s0 s' xs evs) : Script cfg env m s0 s' evs
  | other (hk : m.key ≠ keyWorkers ∧ m.key ≠ keyClients ∧ m.key ≠ keyTimer) (h : s' = s0) :
    Script cfg env m s0 s' []

/-- The abnormal outcomes of a step. -/
inductive StepErr (cfg : HConfig) (env : Env) (m : Msg) (s : HState Q) (e : Err) : Prop
  | empty (hk : m.key = keyWorkers ∨ m.key = keyClients) (hd : m.data = [])
      (he : e = .exn .outOfRange)
  | init {rest : List String} (hk : m.key = keyWorkers) (hd : m.data = "init" :: rest)
      (h : InitErr (s.heard cfg m.identity) env m.identity m.data e)
  | done {rest : List String} (hk : m.key = keyWorkers) (hd : m.data = "done" :: rest)
      (h : DoneErr s m.identity m.data e)
  | eval {rest : List String} (hk : m.key = keyClients) (hd : m.data = "eval" :: rest)
      (h : EvalErr s m.data e)
  | timer (hk : m.key = keyTimer) (h : TimerErr m.data e)

theorem wp_onRequest {cfg : HConfig} {env : Env} {s : HState Q} {m : Msg} (h : HInv s) :
    wp (onRequest cfg env m) s
      (fun _ s' => ∃ evs, Sim cfg.maxFailures s 0 evs s' 0 ∧ Script cfg env m s s' evs)
      (fun e _ => StepErr cfg env m s e) := by
  obtain ⟨key, identity, data⟩ := m
  simp only [onRequest]
  by_cases hk : key = keyWorkers
  · subst hk
    rw [if_pos rfl, wp_bind]
    unfold wp
    rw [touchWorker_eq]
    simp only
    have hfr := heard_frame cfg identity s
    have h1 : HInv (s.heard cfg identity) := h.of_eq (by rw [hfr]) (by rw [hfr])
    have hls : ls (s.heard cfg identity) 0 = ls s 0 := by rw [hfr]; rfl
    have houts : (s.heard cfg identity).outs = s.outs := by rw [hfr]
    have hws : (s.heard cfg identity).workers = s.workers := by rw [hfr]
    have hqs : (s.heard cfg identity).queue = s.queue := by rw [hfr]
    have lift : ∀ {evs s'}, Sim cfg.maxFailures (s.heard cfg identity) 0 evs s' 0 →
        Sim cfg.maxFailures s 0 evs s' 0 := by
      intro evs s' hsim
      exact ⟨hsim.inv, hls ▸ hsim.steps, houts ▸ hsim.outs⟩
    cases data with
    | nil => exact .empty (Or.inl rfl) rfl rfl
    | cons c rest =>
      change wp (workerCommand cfg env c identity (c :: rest)) (s.heard cfg identity) _ _
      simp only [workerCommand]
      by_cases hi : c = "init"
      · subst hi
        rw [if_pos rfl]
        refine wp_mono (wp_processInit (M := cfg.maxFailures) (hand := 0) h1) ?_ ?_
        · rintro _ s' ⟨evs, hsim, hscr⟩
          exact ⟨evs, lift hsim, .init rfl rfl hscr⟩
        · intro e s' he
          exact .init rfl rfl he
      · rw [if_neg hi]
        by_cases hd : c = "done"
        · subst hd
          rw [if_pos rfl]
          refine wp_mono (wp_processDone (hand := 0) h1) ?_ ?_
          · rintro _ s' ⟨evs, hsim, hscr⟩
            exact ⟨evs, lift hsim, .done rfl rfl hscr⟩
          · rintro e s' ⟨h1, h2, w, h3, h4⟩
            rw [hws] at h3
            rw [hqs] at h4
            exact .done rfl rfl ⟨h1, h2, w, h3, h4⟩
        · rw [if_neg hd]
          by_cases hp : c = "ping"
          · subst hp
            rw [if_pos rfl]
            simp only [processPing, wp_bind, wp_get, hws]
            cases hf : regFind identity s.workers with
            | none =>
              simp only [wp_respond]
              refine ⟨_, lift (sim_say h1 _), ?_⟩
              have := Script.ping (cfg := cfg) (env := env) (m := ⟨keyWorkers, identity, "ping" :: rest⟩)
                (s0 := s) (s' := { s.heard cfg identity with
                  outs := s.outs ++ [⟨keyWorkers, identity, ["intro"]⟩] }) rfl rfl
                  (by simp [hf])
              simp only [hf, Option.isSome_none, Bool.false_eq_true, if_false] at this
              rw [houts]; exact this
            | some w =>
              simp only [wp_respond]
              refine ⟨_, lift (sim_say h1 _), ?_⟩
              have := Script.ping (cfg := cfg) (env := env) (m := ⟨keyWorkers, identity, "ping" :: rest⟩)
                (s0 := s) (s' := { s.heard cfg identity with
                  outs := s.outs ++ [⟨keyWorkers, identity, ["pong"]⟩] }) rfl rfl
                  (by simp [hf])
              simp only [hf, Option.isSome_some, if_true] at this
              rw [houts]; exact this
          · rw [if_neg hp]
            by_cases hpr : c = "progress"
            · subst hpr
              rw [if_pos rfl]
              simp only [processProgress, wp_respond, List.tail_cons]
              exact ⟨_, lift (sim_say h1 _), .progress rfl rfl (by rw [houts])⟩
            · rw [if_neg hpr]
              exact ⟨[], lift (Sim.refl h1), .workerUnknown rfl rfl ⟨hi, hd, hp, hpr⟩ rfl⟩
  · rw [if_neg hk]
    by_cases hc : key = keyClients
    · subst hc
      rw [if_pos rfl]
      cases data with
      | nil => exact .empty (Or.inr rfl) rfl rfl
      | cons c rest =>
        simp only [clientCommand]
        by_cases he : c = "eval"
        · subst he
          rw [if_pos rfl]
          refine wp_mono (wp_processEval (M := cfg.maxFailures) (hand := 0) h) ?_ ?_
          · rintro _ s' ⟨hf, evs, hsim, hscr⟩
            exact ⟨evs, hsim, .eval rfl rfl hf hscr⟩
          · intro e s' he
            exact .eval rfl rfl he
        · rw [if_neg he]
          by_cases hs : c = "get-runtime-stats"
          · subst hs
            rw [if_pos rfl]
            simp only [processStats, wp_bind, wp_get, wp_respond]
            exact ⟨_, sim_say h _, .stats rfl rfl rfl⟩
          · rw [if_neg hs]
            by_cases hf : c = "freeze"
            · subst hf
              rw [if_pos rfl]
              simp only [processFreeze, wp_bind, wp_modify, wp_respond]
              have h' : HInv ({ s with frozen := true } : HState Q) := h.of_eq rfl rfl
              exact ⟨_, ⟨h'.of_eq rfl rfl, .single (.say _ _), by simp [Ev.msgs]⟩,
                .freeze rfl rfl rfl⟩
            · rw [if_neg hf]
              by_cases hu : c = "unfreeze"
              · subst hu
                rw [if_pos rfl]
                simp only [processUnfreeze, wp_bind, wp_modify, wp_respond]
                have h' : HInv ({ s with frozen := false } : HState Q) := h.of_eq rfl rfl
                exact ⟨_, ⟨h'.of_eq rfl rfl, .single (.say _ _), by simp [Ev.msgs]⟩,
                  .unfreeze rfl rfl rfl⟩
              · rw [if_neg hu]
                exact ⟨[], Sim.refl h, .clientUnknown rfl rfl ⟨he, hs, hf, hu⟩ rfl⟩
    · rw [if_neg hc]
      by_cases ht : key = keyTimer
      · subst ht
        rw [if_pos rfl]
        refine wp_mono (wp_processTimer (hand := 0) h) ?_ ?_
        · rintro _ s' ⟨f, rest, time, xs, evs, hd, ht, hsim, hscr⟩
          exact ⟨evs, hsim, .timer rfl hd ht hscr⟩
        · intro e s' he
          exact .timer rfl he
      · rw [if_neg ht]
        exact ⟨[], Sim.refl h, .other ⟨hk, hc, ht⟩ rfl⟩

end Broker
