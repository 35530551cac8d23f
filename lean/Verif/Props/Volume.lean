import Verif.Proof.Volume
import Verif.Spec.Exec
import Verif.Proof.MultiLaws
import Verif.Proof.SingleLaws

/-!
# C106: what the broker sends is bounded by what it received
-/

set_option linter.unusedSectionVars false

namespace Broker

open QueueManager LawfulQM Spec

variable {Q : Type} [QueueManager Q] [LawfulQM Q]

/-- **C106, clients.** At most one message per message of a client, and one more per request for an
    evaluation. -/
theorem C106_clients {cfg : HConfig} {env : Env} {h : List (Tr Q)} {s : HState Q}
    (hr : Run cfg env h s) :
    left "clients" h ≤ arrived "clients" h + came "clients" "eval" h := by
  have := volume_le replyLaws replyAllow (fun hi => reply_allow hi) hr
  rw [sum_replyAllow] at this
  omega

/-- **C106, workers.** At most one message per introduction and ping, and at most
    `max 1 max_request_failures` messages per request for an evaluation; the timer and the reports of
    workers add nothing. -/
theorem C106_workers {cfg : HConfig} {env : Env} {h : List (Tr Q)} {s : HState Q}
    (hr : Run cfg env h s) :
    left "workers" h ≤ max 1 cfg.maxFailures * came "clients" "eval" h
      + came "workers" "init" h + came "workers" "ping" h := by
  have := volume_le (giveLaws cfg.maxFailures_lt) (giveAllow cfg.maxFailures)
    (fun hi => give_allow hi) hr
  rw [sum_giveAllow] at this
  omega

/-- **C106, frontend.** At most one notification per request for an evaluation and two per
    introduction of a worker, however often workers report, ask or fall silent. -/
theorem C106_frontend {cfg : HConfig} {env : Env} {h : List (Tr Q)} {s : HState Q}
    (hr : Run cfg env h s) :
    left "status_notifier" h ≤ came "clients" "eval" h + 2 * came "workers" "init" h := by
  have := volume_le noteLaws noteAllow (fun hi => note_allow hi) hr
  rw [sum_noteAllow] at this
  omega

/-- **C106, monitor.** The monitor is told at most one message per request for an evaluation, report
    and progress message, and per introduction of a worker at most as many as jobs can be waiting. -/
theorem C106_monitor {cfg : HConfig} {env : Env} {h : List (Tr Q)} {s : HState Q}
    (hr : Run cfg env h s) :
    left "monitor" h ≤ came "clients" "eval" h + came "workers" "done" h
      + came "workers" "progress" h
      + came "workers" "init" h * (came "clients" "eval" h + came "workers" "init" h) := by
  have h1 := (tell_le hr).2
  have h2 : (came "workers" "init" h - s.workers.length)
        * (came "clients" "eval" h + came "workers" "init" h)
      ≤ came "workers" "init" h * (came "clients" "eval" h + came "workers" "init" h) :=
    Nat.mul_le_mul_right _ (Nat.sub_le _ _)
  omega

/-- **C106, other sockets.** Nothing is sent anywhere else. -/
theorem C106_nowhere_else {cfg : HConfig} {env : Env} {h : List (Tr Q)} {s : HState Q}
    (hr : Run cfg env h s) {o : Msg} (ho : o ∈ emitted h) :
    o.key = "clients" ∨ o.key = "workers" ∨ o.key = "status_notifier" ∨ o.key = "monitor" := by
  refine (?_ : ∀ o ∈ emitted h, o.key = "clients" ∨ o.key = "workers" ∨
    o.key = "status_notifier" ∨ o.key = "monitor") o ho
  clear ho
  refine Run.induct (P := fun h _ => ∀ o ∈ emitted h, o.key = "clients" ∨ o.key = "workers" ∨
    o.key = "status_notifier" ∨ o.key = "monitor") ?_ ?_ hr
  · simp [emitted]
  · intro h s m s' evs _ _ _ ih _ hi o ho
    have h4 : emitted (h ++ [⟨s, m, s'⟩]) = emitted h ++ s'.outs := by simp [emitted, Tr.outs]
    rw [h4, List.mem_append] at ho
    rcases ho with ho | ho
    · exact ih o ho
    · rw [hi.outs] at ho
      obtain ⟨e, he, hm⟩ := List.mem_flatMap.1 ho
      have hsh := hi.script.shape e he
      cases e with
      | say x =>
        have := List.mem_singleton.1 hm
        subst this
        cases hsh with
        | client _ h => exact Or.inl h
        | monitor h => exact Or.inr (Or.inr (Or.inr h.1))
        | worker _ h => exact Or.inr (Or.inl h)
        | error _ h => exact Or.inr (Or.inr (Or.inl h))
      | _ => simp_all [Ev.msgs, sendMsg, okMsg, failMsg, keyWorkers, keyNotifier]

/-- Workers live for one ping interval and jobs are tried once. -/
def cfg1 : HConfig where
  maxLiveness := 1
  maxLiveness_lt := by decide
  maxFailures := 1
  maxFailures_lt := by decide
  pingInterval := 1000

/-- Ten jobs of one worker; one worker after the other takes over the jobs and falls silent. -/
def relay : List Msg :=
  fromW "0" ["init", "g", "env=c"] ::
  ((List.range 10).map (fun n => fromC "c" ["eval", toString n, "env=c", "", "x"]) ++
  (List.range 9).flatMap (fun n => [fromW (toString (n + 1)) ["init", "g", "env=c"],
    fromW (toString n) ["ping"], tick "1000"]))

/-- **C106, the monitor is told more.** Jobs that wait for workers which fall silent one after the
    other are reported each time: a bound on the messages to the monitor in terms of the numbers of
    messages received from clients and workers, like the ones for the other sockets, does not hold. -/
theorem C106_refuted_monitor : ∃ (h : List (Tr Multi)) (s : HState Multi), Run cfg1 env0 h s ∧
    max 1 cfg1.maxFailures * arrived "clients" h + arrived "workers" h < left "monitor" h := by
  obtain ⟨h, s, hr, hp⟩ := exists_run (Q := Multi) (cfg := cfg1) (env := env0) relay
    (fun h _ => decide (max 1 cfg1.maxFailures * arrived "clients" h + arrived "workers" h
      < left "monitor" h)) (by decide +kernel)
  exact ⟨h, s, hr, of_decide_eq_true hp⟩

/-- The bounds for clients and workers are reached: in this execution 20 messages to clients, 19 to
    workers (of which 9 dispatches), 8 notifications and 36 messages to the monitor. -/
example : ∃ (h : List (Tr Multi)) (s : HState Multi), Run cfg1 env0 h s ∧
    left "clients" h = 20 ∧ arrived "clients" h + came "clients" "eval" h = 20 ∧
    left "workers" h = 19 ∧ max 1 cfg1.maxFailures * came "clients" "eval" h
      + came "workers" "init" h + came "workers" "ping" h = 29 ∧
    left "status_notifier" h = 8 ∧ left "monitor" h = 36 := by
  obtain ⟨h, s, hr, hp⟩ := exists_run (Q := Multi) (cfg := cfg1) (env := env0) relay
    (fun h _ => decide (left "clients" h = 20 ∧
      arrived "clients" h + came "clients" "eval" h = 20 ∧
      left "workers" h = 19 ∧ max 1 cfg1.maxFailures * came "clients" "eval" h
        + came "workers" "init" h + came "workers" "ping" h = 29 ∧
      left "status_notifier" h = 8 ∧ left "monitor" h = 36)) (by decide +kernel)
  exact ⟨h, s, hr, of_decide_eq_true hp⟩

/-- With the single-queue manager the bounds are reached for workers (`ping`, an empty message to a
    worker that introduces itself with a job, a dispatch) and the frontend. -/
example : ∃ (h : List (Tr Single)) (s : HState Single), Run cfg1 env0 h s ∧
    left "workers" h = 3 ∧ max 1 cfg1.maxFailures * came "clients" "eval" h
      + came "workers" "init" h + came "workers" "ping" h = 4 ∧
    left "status_notifier" h = 3 ∧ came "clients" "eval" h + 2 * came "workers" "init" h = 5 := by
  obtain ⟨h, s, hr, hp⟩ := exists_run (Q := Single) (cfg := cfg1) (env := env0)
    [fromW "w" ["init", "g", "env=c", "", "current_job=A"], fromW "w" ["done", "A", "OK"],
     fromW "w" ["init", "g", "env=java"], fromW "w" ["ping"],
     fromC "c" ["eval", "J", "env=c", "", "x"], fromW "w" ["done", "J", "OK"]]
    (fun h _ => decide (left "workers" h = 3 ∧ max 1 cfg1.maxFailures * came "clients" "eval" h
        + came "workers" "init" h + came "workers" "ping" h = 4 ∧
      left "status_notifier" h = 3 ∧ came "clients" "eval" h + 2 * came "workers" "init" h = 5))
    (by decide +kernel)
  exact ⟨h, s, hr, of_decide_eq_true hp⟩

end Broker
