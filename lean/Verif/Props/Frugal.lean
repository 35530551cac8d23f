import Verif.Proof.Frugal
import Verif.Props.Volume

/-!
# C115: with one queue the monitor is told in proportion to what arrived
-/

set_option linter.unusedSectionVars false

namespace Broker.Spec

/-- Number of messages among `l` that tell the monitor of a job taken away from a worker. -/
def aborted (l : List Msg) : Nat :=
  l.countP (fun o => o.key == "monitor" && o.data.drop 1 == ["ABORTED"])

end Broker.Spec

namespace Broker

open QueueManager LawfulQM Spec

/-- **C115.** With one queue the monitor is told at most one message per request for an evaluation,
    per progress message and per introduction of a worker; reports of workers, pings and the timer
    add nothing. -/
theorem C115_monitor {cfg : HConfig} {env : Env} {h : List (Tr Single)} {s : HState Single}
    (hr : Run cfg env h s) :
    left "monitor" h ≤ came "clients" "eval" h + came "workers" "progress" h
      + came "workers" "init" h := by
  have := frugal_le hr
  omega

/-- **C115, sharper.** The broker keeps one message in reserve for every registered worker and for
    every job that waits. -/
theorem C115_reserve {cfg : HConfig} {env : Env} {h : List (Tr Single)} {s : HState Single}
    (hr : Run cfg env h s) :
    left "monitor" h + s.workers.length + s.queue.jobs.length ≤ came "clients" "eval" h
      + came "workers" "progress" h + came "workers" "init" h := by
  have h1 := frugal_le hr
  have h2 : s.queue.jobs.length ≤ heldFull (ls s 0) := by
    have h3 := hr.inv.2.queC
    have h4 : (ls s 0).que.countP (fun r => r.complete = true) = (ls s 0).que.card :=
      Multiset.countP_eq_card.2 h3
    have h5 : queuedCount s.queue = (LawfulQM.que s.queue).card := queued_card hr.inv.1.qinv
    have h6 : s.queue.jobs.length = (ls s 0).que.card := h5
    unfold heldFull
    omega
  omega

/-- **C115, the timer.** With one queue a timer event tells the monitor of at most one job taken away
    per worker that leaves: jobs that wait stay where they are. -/
theorem C115_aborted {cfg : HConfig} {env : Env} {h : List (Tr Single)} {s s' : HState Single}
    {m : Msg} (hr : Run cfg env h s) (hk : m.key = "timer") (hs : step cfg env m s = .ok () s') :
    aborted s'.outs + s'.workers.length ≤ s.workers.length :=
  aborts_le hr.inv.1 hr.inv.2 hk hs

/-- **C115, other comparators and selectors.** The same for the single-queue manager with any lawful
    comparator and selector. -/
theorem C115_policy {π : Policy} [π.Lawful] {cfg : HConfig} {env : Env}
    {h : List (Tr (SingleOf π))} {s : HState (SingleOf π)} (hr : Run cfg env h s) :
    left "monitor" h ≤ came "clients" "eval" h + came "workers" "progress" h
        + came "workers" "init" h ∧
      ∀ m s', m.key = "timer" → step cfg env m s = .ok () s' →
        aborted s'.outs + s'.workers.length ≤ s.workers.length := by
  have := frugal_le hr
  exact ⟨by omega, fun m s' hk hs => aborts_le hr.inv.1 hr.inv.2 hk hs⟩

/-- `n` jobs of one worker; one worker after the other takes over the jobs and falls silent. -/
def relayOf (n : Nat) : List Msg :=
  fromW "0" ["init", "g", "env=c"] ::
  ((List.range n).map (fun k => fromC "c" ["eval", toString k, "env=c", "", "x"]) ++
  (List.range n).flatMap (fun k => [fromW (toString (k + 1)) ["init", "g", "env=c"],
    fromW (toString k) ["ping"], tick "1001"]))

/-- **C115, not with queues per worker.** A manager with one queue for every worker tells the monitor
    of waiting jobs each time they move, so neither bound holds for it. -/
theorem C115_refuted_multi :
    (∃ (h : List (Tr Multi)) (s : HState Multi), Run cfg1 env0 h s ∧
      came "clients" "eval" h + came "workers" "progress" h + came "workers" "init" h
        < left "monitor" h) ∧
    ∃ (h : List (Tr Multi)) (s s' : HState Multi) (m : Msg), Run cfg1 env0 h s ∧
      m.key = "timer" ∧ step cfg1 env0 m s = .ok () s' ∧
      s.workers.length < aborted s'.outs + s'.workers.length := by
  constructor
  · obtain ⟨h, s, hr, hp⟩ := exists_run (Q := Multi) (cfg := cfg1) (env := env0) (relayOf 8)
      (fun h _ => decide (came "clients" "eval" h + came "workers" "progress" h
        + came "workers" "init" h < left "monitor" h)) (by decide +kernel)
    exact ⟨h, s, hr, of_decide_eq_true hp⟩
  · obtain ⟨h, s, hr, hp⟩ := exists_run (Q := Multi) (cfg := cfg1) (env := env0)
      ((relayOf 4).take 7)
      (fun _ s => match step cfg1 env0 (tick "1001") s with
        | .ok _ s' => decide (s.workers.length < aborted s'.outs + s'.workers.length)
        | .error _ _ => false) (by decide +kernel)
    cases hs : step cfg1 env0 (tick "1001") s with
    | error e s' => rw [hs] at hp; cases hp
    | ok u s' =>
      rw [hs] at hp
      exact ⟨h, s, s', tick "1001", hr, rfl, hs, of_decide_eq_true hp⟩

/-- With the single-queue manager the same messages tell the monitor 8 times, less than the
    17 the bound allows. -/
example : ∃ (h : List (Tr Single)) (s : HState Single), Run cfg1 env0 h s ∧
    left "monitor" h = 8 ∧ came "clients" "eval" h + came "workers" "progress" h
      + came "workers" "init" h = 17 := by
  obtain ⟨h, s, hr, hp⟩ := exists_run (Q := Single) (cfg := cfg1) (env := env0) (relayOf 8)
    (fun h _ => decide (left "monitor" h = 8 ∧ came "clients" "eval" h
      + came "workers" "progress" h + came "workers" "init" h = 17)) (by decide +kernel)
  exact ⟨h, s, hr, of_decide_eq_true hp⟩

/-- A rejected request, a worker with a job of its own and one with a job of a client, which falls
    silent first. -/
def twoSilences : List Msg :=
  [fromC "c" ["eval", "R", "env=java", "", "x"], fromW "w" ["init", "g", "env=c"],
   fromC "c" ["eval", "J", "env=c", "", "x"], fromC "c" ["eval", "K", "env=c", "", "x"],
   fromW "w" ["progress", "J", "STARTED"], tick "1001", tick "1001", tick "1001",
   fromW "v" ["init", "g", "env=c", "", "current_job=A"], fromW "v" ["ping"],
   tick "1001", tick "1001", tick "1001", tick "1001"]

/-- The bound is reached: the monitor hears of the rejection, of the progress, of the job taken from
    the worker that falls silent first and of the three jobs lost with the other one. -/
example : ∃ (h : List (Tr Single)) (s : HState Single), Run cfg0 env0 h s ∧
    left "monitor" h = 6 ∧ came "clients" "eval" h = 3 ∧ came "workers" "progress" h = 1 ∧
      came "workers" "init" h = 2 := by
  obtain ⟨h, s, hr, hp⟩ := exists_run (Q := Single) (cfg := cfg0) (env := env0) twoSilences
    (fun h _ => decide (left "monitor" h = 6 ∧ came "clients" "eval" h = 3 ∧
      came "workers" "progress" h = 1 ∧ came "workers" "init" h = 2)) (by decide +kernel)
  exact ⟨h, s, hr, of_decide_eq_true hp⟩

/-- The same with the single-queue manager as a template. -/
example : ∃ (h : List (Tr (SingleOf Policy.default))) (s : HState (SingleOf Policy.default)),
    Run cfg0 env0 h s ∧ left "monitor" h = 6 := by
  obtain ⟨h, s, hr, hp⟩ := exists_run (Q := SingleOf Policy.default) (cfg := cfg0) (env := env0)
    twoSilences (fun h _ => decide (left "monitor" h = 6)) (by decide +kernel)
  exact ⟨h, s, hr, of_decide_eq_true hp⟩

/-- The worker that leaves accounts for the one job taken away. -/
example : ∃ (h : List (Tr Single)) (s s' : HState Single), Run cfg0 env0 h s ∧
    step cfg0 env0 (tick "1001") s = .ok () s' ∧ aborted s'.outs = 1 ∧ s.workers.length = 2 ∧
      s'.workers.length = 1 ∧ s'.queue.jobs.length = 2 := by
  obtain ⟨h, s, hr, hp⟩ := exists_run (Q := Single) (cfg := cfg0) (env := env0)
    (twoSilences.take 10)
    (fun _ s => match step cfg0 env0 (tick "1001") s with
      | .ok _ s' => decide (aborted s'.outs = 1 ∧ s.workers.length = 2 ∧ s'.workers.length = 1 ∧
          s'.queue.jobs.length = 2)
      | .error _ _ => false) (by decide +kernel)
  cases hs : step cfg0 env0 (tick "1001") s with
  | error e s' => rw [hs] at hp; cases hp
  | ok u s' =>
    rw [hs] at hp
    exact ⟨h, s, s', hr, hs, of_decide_eq_true hp⟩

end Broker
