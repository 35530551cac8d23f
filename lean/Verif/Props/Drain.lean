import Verif.Props.Workers
import Verif.Props.Queues
import Verif.Props.Robustness

/-!
# C69: every job the broker holds can still be finished
-/

set_option linter.unusedSectionVars false

namespace Broker

open LawfulQM

/-- A waiting request leads to a registered worker that is stalled or busy. -/
class Draining (Q : Type) [QueueManager Q] [LawfulQM Q] [Conserving Q] : Prop where
  waiting : ∀ {q : Q} {r : Req}, Inv q → r ∈ que q →
    ∃ w ∈ reg q, Conserving.Stall q w ∨ (QueueManager.currentRequest q w).1 ≠ none
  idle : ∀ {q : Q} {w : Worker}, Conserving.Stall q w → (QueueManager.currentRequest q w).1 = none

instance : Draining Single where
  idle h := h.2.1
  waiting {q r} hi hr := by
    obtain ⟨w, hw, hc⟩ := que_can hi r hr
    refine ⟨w, hw, ?_⟩
    by_cases hn : (QueueManager.currentRequest q w).1 = none
    · left
      simp only [LawfulQM.que, Multiset.mem_coe] at hr
      obtain ⟨e, he, rfl⟩ := List.mem_map.1 hr
      exact ⟨by simpa [LawfulQM.reg] using hw, hn, e, he, hc⟩
    · exact .inr hn

instance : Draining Multi where
  idle h := h.2.1
  waiting {q r} hi hr := by
    have hi' : Multi.Inv q := hi
    simp only [LawfulQM.que, Multiset.mem_coe, Multi.queList, List.mem_flatMap] at hr
    obtain ⟨⟨w, l⟩, he, hrl⟩ := hr
    have hw : w ∈ q.ring := hi'.memQue.1 (List.mem_map.2 ⟨_, he, rfl⟩)
    refine ⟨w, by simpa [LawfulQM.reg] using hw, ?_⟩
    by_cases hn : (QueueManager.currentRequest q w).1 = none
    · left
      have hq : q.queues.getD w [] = l := by
        obtain ⟨v, a, b, e1, e2, _⟩ := hi'.splitQue hw
        have : (w, v) ∈ q.queues := by rw [e1]; simp
        rw [e2]
        exact (hi'.queSorted.unique this he rfl).2
      exact ⟨hw, hn, by rw [hq]; exact List.ne_nil_of_mem hrl⟩
    · exact .inr hn

variable {Q : Type} [QueueManager Q] [LawfulQM Q] [Conserving Q] [Draining Q]

theorem regFind_of_nodup {ws : List Worker} {w : Worker} (hn : (ws.map (·.identity)).Nodup)
    (hw : w ∈ ws) : regFind w.identity ws = some w := by
  induction ws with
  | nil => simp at hw
  | cons a t ih =>
    simp only [List.map_cons, List.nodup_cons] at hn
    rcases List.mem_cons.1 hw with rfl | hw
    · simp [regFind]
    · have : a.identity ≠ w.identity := fun e => hn.1 (List.mem_map.2 ⟨w, hw, e.symm⟩)
      rw [← ih hn.2 hw]
      simp [regFind, this]

/-- What the frontend is told: the messages to the notifier. -/
def toFrontend (ms : List Msg) : List (List String) :=
  (ms.filter (fun o => o.key == "status_notifier")).map (·.data)

theorem drain_busy {s : HState Q} (hh : HInv s) (hs : ∀ w ∈ s.workers, ¬ Conserving.Stall s.queue w)
    (hne : heldJobs s ≠ 0) : ∃ w ∈ s.workers, ∃ r, (w, r) ∈ busy s.queue := by
  obtain ⟨j, hj⟩ := Multiset.exists_mem_of_ne_zero hne
  rw [heldJobs, Multiset.mem_add] at hj
  rcases hj with hj | hj
  · obtain ⟨⟨w, r⟩, hb, _⟩ := Multiset.mem_map.1 hj
    exact ⟨w, hh.mem_reg.2 (busy_reg hh.qinv _ hb), r, hb⟩
  · obtain ⟨r, hq, _⟩ := Multiset.mem_map.1 hj
    obtain ⟨w, hw, hst | hc⟩ := Draining.waiting hh.qinv hq
    · exact absurd hst (hs w (hh.mem_reg.2 hw))
    · obtain ⟨r', hr'⟩ := Option.ne_none_iff_exists'.1 hc
      exact ⟨w, hh.mem_reg.2 hw, r', ((LawfulQM.current hh.qinv hw).2 r').1 hr'⟩

theorem drain_step {cfg : HConfig} {env : Env} {s : HState Q} (hh : HInv s)
    (hn : (s.workers.map (·.identity)).Nodup)
    (hs : ∀ w ∈ s.workers, ¬ Conserving.Stall s.queue w) (hne : heldJobs s ≠ 0) :
    ∃ w ∈ s.workers, ∃ (r : Req) (s' : HState Q),
      step cfg env ⟨"workers", w.identity, ["done", r.jobId, "OK"]⟩ s = .ok () s' ∧
      s'.workers = s.workers ∧ (∀ w ∈ s'.workers, ¬ Conserving.Stall s'.queue w) ∧
      heldJobs s = r.jobId ::ₘ heldJobs s' ∧
      toFrontend s'.outs = [["type", "job-status", "id", r.jobId, "status", "OK"]] := by
  obtain ⟨w, hw, r, hb⟩ := drain_busy hh hs hne
  have hf := regFind_of_nodup hn hw
  have hp : Spec.Processing w.identity w r s := (processing_iff hh).2 ⟨hf, hb⟩
  obtain ⟨s', evs, hst, hi, hfr, hds⟩ := done_report (cfg := cfg) (env := env)
    (m := ⟨"workers", w.identity, ["done", r.jobId, "OK"]⟩) hh rfl rfl hp
  have hws : s'.workers = s.workers := by
    rw [hfr.workers]; unfold HState.heard; split <;> rfl
  refine ⟨w, hw, r, s', hst, hws, ?_, ?_⟩
  · intro x hx hstall
    rcases step_stall hh hst hstall with h1 | ⟨_, _, _, hd, _⟩
    · exact hs x (hws ▸ hx) h1
    · simp at hd
  · have hheld := hi.heldJobs_eq
    have hout := hi.outs
    clear hi
    cases hds with
    | failed hst => simp at hst
    | adopted hst => simp at hst
    | exhausted hst => simp at hst
    | resent hst => simp at hst
    | parked hst => simp at hst
    | ignored hs' hst => simp at hst
    | @ok t _ hn =>
      refine ⟨?_, ?_⟩
      · rw [← hheld (by
          intro e he
          cases hn with
          | none => simp at he; subst he; rfl
          | pull r' => simp at he; rcases he with rfl | rfl <;> rfl)]
        have : (t.map Ev.leaves).sum = 0 := by cases hn <;> simp [Ev.leaves]
        simp only [List.map_cons, List.sum_cons, Ev.leaves, this, add_zero, Multiset.map_singleton]
        rw [add_comm, Multiset.singleton_add]
      · rw [hout]
        cases hn <;> simp [toFrontend, msgsOf, Ev.msgs, sendMsg, keyWorkers, okMsg, keyNotifier]

theorem Run.no_stall {cfg : HConfig} {env : Env} {h : List (Tr Q)} {s : HState Q}
    (hr : Run cfg env h s) (hs : ∀ w ∈ s.workers, Idle s w → ¬ StalledByError h w) :
    ∀ w ∈ s.workers, ¬ Conserving.Stall s.queue w := by
  intro w hw hst
  obtain ⟨a, t, b, g1, g2, g3, g4, g5, g6⟩ := hr.stall hst
  exact hs w hw (Draining.idle hst)
    ⟨a, t, b, g1, g2, g3, g4, g5, fun t' ht' => Draining.idle (g6 t' ht')⟩

/-- **C69, someone works.** As long as the broker holds a job, and no worker has been idle since it
    reported an internal error, some registered worker is processing a job. -/
theorem C69_someone_works {cfg : HConfig} {env : Env} {h : List (Tr Q)} {s : HState Q}
    (hr : Run cfg env h s) (hs : ∀ w ∈ s.workers, Idle s w → ¬ StalledByError h w)
    (hne : heldJobs s ≠ 0) : ∃ w ∈ s.workers, ¬ Idle s w := by
  obtain ⟨w, hw, r, hb⟩ := drain_busy hr.inv.1 (hr.no_stall hs) hne
  exact ⟨w, hw, by rw [Idle, current_of_busy hr.inv.1 hb]; simp⟩

/-- **C69.** At every point of every history at which no two registered workers have the same
    identity and no worker has been idle since it reported an internal error: the broker has not
    run into a dead end.  It is enough that registered workers report success, once for each job
    held (nothing else has to happen); then the frontend is told exactly once for each of these jobs
    that it is done, it is told nothing else, and the broker holds no job. -/
theorem C69_completable {cfg : HConfig} {env : Env} {h : List (Tr Q)} {s : HState Q}
    (hr : Run cfg env h s) (hn : (s.workers.map (·.identity)).Nodup)
    (hs : ∀ w ∈ s.workers, Idle s w → ¬ StalledByError h w) :
    ∃ h2 s', Run cfg env (h ++ h2) s' ∧ heldJobs s' = 0 ∧ h2.length = (heldJobs s).card ∧
      (∀ t ∈ h2, ∃ w ∈ s.workers, ∃ j, t.msg = ⟨"workers", w.identity, ["done", j, "OK"]⟩) ∧
      (toFrontend (emitted h2) : Multiset (List String))
        = (heldJobs s).map (fun j => ["type", "job-status", "id", j, "status", "OK"]) := by
  have hs' := hr.no_stall hs
  clear hs
  generalize hc : (heldJobs s).card = n
  induction n generalizing h s with
  | zero =>
    have h0 : heldJobs s = 0 := Multiset.card_eq_zero.1 hc
    exact ⟨[], s, by simpa using hr, h0, by simp, by simp, by simp [h0, toFrontend, emitted]⟩
  | succ n ih =>
    have hne : heldJobs s ≠ 0 := by intro h0; rw [h0] at hc; simp at hc
    obtain ⟨w, hw, r, s1, hst, hws, hs1, hheld, hout⟩ :=
      drain_step (cfg := cfg) (env := env) hr.inv.1 hn hs' hne
    have hr1 := hr.snoc hst
    have hc1 : (heldJobs s1).card = n := by rw [hheld] at hc; simpa using hc
    obtain ⟨h2, s', g1, g2, g3, g4, g5⟩ := ih hr1 (by rw [hws]; exact hn) hs1 hc1
    refine ⟨⟨s, _, s1⟩ :: h2, s', by simpa using g1, g2, by simp [g3], ?_, ?_⟩
    · intro t ht
      rcases List.mem_cons.1 ht with rfl | ht
      · exact ⟨w, hw, r.jobId, rfl⟩
      · rw [← hws]; exact g4 t ht
    · have e1 : toFrontend (emitted (⟨s, ⟨"workers", w.identity, ["done", r.jobId, "OK"]⟩, s1⟩ :: h2))
          = ["type", "job-status", "id", r.jobId, "status", "OK"] :: toFrontend (emitted h2) := by
        have : ∀ a b, toFrontend (a ++ b) = toFrontend a ++ toFrontend b := by
          intro a b; simp [toFrontend]
        rw [show emitted (⟨s, ⟨"workers", w.identity, ["done", r.jobId, "OK"]⟩, s1⟩ :: h2)
          = s1.outs ++ emitted h2 from by simp [emitted, Tr.outs], this, hout]
        rfl
      rw [e1, hheld, Multiset.map_cons, ← g5]
      rfl

/-- Messages for the checks: two workers, five jobs, one of them announced by a worker, three of them
    waiting; an internal error before. -/
def drainMsgs : List Msg :=
  [fromW "w1" ["init", "group", "env=c"], fromW "w2" ["init", "group", "env=c", "", "current_job=J0"],
   fromC "client" ["eval", "J1", "env=c", "", "a"], fromC "client" ["eval", "J2", "env=c", "", "b"],
   fromC "client" ["eval", "J3", "env=c", "", "c"], fromW "w1" ["done", "J1", "INTERNAL_ERROR", "e"],
   fromC "client" ["eval", "J4", "env=c", "", "d"]]

/-- What the checks ask: five jobs held, distinct identities, no idle worker. -/
def drainCheck {Q : Type} [QueueManager Q] (s : HState Q) : Bool :=
  s.workers.map (·.identity) == ["w1", "w2"] && s.workers.all (fun w => !isIdleBool s w) &&
    s.workers.length == 2

example : ∃ h s, Run (Q := Single) cfg0 env0 h s ∧
    (drainCheck s && s.queue.jobs.length == 3) = true :=
  exists_run (Q := Single) drainMsgs (fun _ s => drainCheck s && s.queue.jobs.length == 3) (by decide +kernel)

example : ∃ h s, Run (Q := Multi) cfg0 env0 h s ∧
    (drainCheck s && s.queue.queues.map (·.2.length) == [1, 2]) = true :=
  exists_run (Q := Multi) drainMsgs
    (fun _ s => drainCheck s && s.queue.queues.map (·.2.length) == [1, 2]) (by decide +kernel)

/-- Distinct identities are needed: after the worker `w1` introduced itself again with other headers
    and got a job, every report from a registered worker brings the broker down. -/
theorem C69_refuted_same_identity : ∃ (h : List (Tr Single)) (s : HState Single),
    Run cfg0 env0 h s ∧ heldJobs s ≠ 0 ∧ (∀ t ∈ h, ∀ j text,
      t.msg.data ≠ ["done", j, "INTERNAL_ERROR", text]) ∧
    ∀ w ∈ s.workers, ∀ j st rest, ∃ s',
      step cfg0 env0 ⟨"workers", w.identity, "done" :: j :: st :: rest⟩ s
        = .error (.ub .nullDeref) s' := by
  obtain ⟨h, s, hr, hp⟩ := exists_run (Q := Single) (cfg := cfg0) (env := env0)
    [fromW "w1" ["init", "group", "env=c"], fromW "w1" ["init", "group", "env=java"],
     fromC "client" ["eval", "J", "env=java", "", "x"]]
    (fun h s => (h.all (fun t => t.msg.data.head? != some "done")) &&
      s.workers.all (fun w => w.identity == "w1") &&
      (s.workers.find? (fun w => w.identity == "w1")).any (fun w => isIdleBool s w) &&
      s.queue.current.any (fun p => p.2.isSome)) (by decide +kernel)
  simp only [Bool.and_eq_true, List.all_eq_true, List.any_eq_true, bne_iff_ne, beq_iff_eq] at hp
  obtain ⟨⟨⟨h1, h2⟩, h3⟩, h4⟩ := hp
  refine ⟨h, s, hr, ?_, ?_, ?_⟩
  · obtain ⟨⟨w, o⟩, hm, ho⟩ := h4
    cases o with
    | none => cases ho
    | some r =>
      rw [heldJobs_single]
      intro h0
      have : r.jobId ∈ (0 : Multiset String) := by
        rw [← h0, Multiset.mem_add]
        exact .inl (List.mem_filterMap.2 ⟨_, hm, rfl⟩)
      simp at this
  · intro t ht j text hd
    exact h1 t ht (by rw [hd]; rfl)
  · intro w hw j st rest
    rw [h2 w hw]
    cases hf : s.workers.find? (fun w => w.identity == "w1") with
    | none => rw [hf] at h3; cases h3
    | some x =>
      rw [hf] at h3
      refine C20_idle_done_undefined hr rfl rfl hf ?_
      simpa [isIdleBool] using h3

end Broker
