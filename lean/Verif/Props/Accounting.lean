import Verif.Proof.Enter
import Verif.Proof.MultiLaws
import Verif.Proof.SingleLaws
import Verif.Spec.Exec

/-!
# C01, C02: every job is accounted for

`heldJobs` are the ids of the jobs the broker holds: the ones its registered workers are processing
and the waiting ones.  What these are for the two queue managers is spelled out by
`heldJobs_single` and `heldJobs_multi`.
-/

namespace Broker

open LawfulQM

variable {Q : Type} [QueueManager Q] [LawfulQM Q]

/-- Ids of the jobs held by the broker. -/
def heldJobs (s : HState Q) : Multiset String :=
  (busy s.queue).map (fun p => p.2.jobId) + (que s.queue).map (fun r => r.jobId)

/-- Single queue: the values of `worker_jobs_` and the entries of `queued_jobs_`. -/
theorem heldJobs_single (s : HState Single) :
    heldJobs s = ((s.queue.current.filterMap (fun p => p.2.map (·.jobId)) : List String)
      : Multiset String) + ((s.queue.jobs.map (fun e => e.1.jobId) : List String) : Multiset String) := by
  unfold heldJobs
  congr 1
  · show Multiset.map _ (↑(busyList s.queue.current) : Multiset (Worker × Req)) = _
    rw [Multiset.map_coe]
    congr 1
    induction s.queue.current with
    | nil => rfl
    | cons a t ih => obtain ⟨w, o⟩ := a; cases o <;> simp_all [busyList]
  · show Multiset.map _ (↑(Single.queList s.queue.jobs) : Multiset Req) = _
    rw [Multiset.map_coe]
    simp [Single.queList, Function.comp_def]

/-- Multiple queues: the values of `current_requests_` and the entries of all queues. -/
theorem heldJobs_multi (s : HState Multi) :
    heldJobs s = ((s.queue.current.filterMap (fun p => p.2.map (·.jobId)) : List String)
      : Multiset String)
      + ((s.queue.queues.flatMap (fun p => p.2.map (·.jobId)) : List String) : Multiset String) := by
  unfold heldJobs
  congr 1
  · show Multiset.map _ (↑(busyList s.queue.current) : Multiset (Worker × Req)) = _
    rw [Multiset.map_coe]
    congr 1
    induction s.queue.current with
    | nil => rfl
    | cons a t ih => obtain ⟨w, o⟩ := a; cases o <;> simp_all [busyList]
  · show Multiset.map _ (↑(Multi.queList s.queue.queues) : Multiset Req) = _
    rw [Multiset.map_coe]
    congr 1
    induction s.queue.queues with
    | nil => rfl
    | cons a t ih => simp_all [Multi.queList]

theorem heldJobs_count (s : HState Q) (j : String) :
    (heldJobs s).count j = (ls s 0).held.countP (fun r => r.jobId = j) := by
  rw [heldJobs, LS.held, Multiset.count_add, Multiset.countP_add, Multiset.countP_add,
    Multiset.count_map, Multiset.count_map, Multiset.countP_map, Multiset.countP_eq_card_filter]
  simp only [ls, eq_comm, Multiset.countP_zero, Nat.add_zero]

/-- **C01.** At every point of every history and for every job id: the requests the broker accepted
    plus the jobs it adopted from workers that registered while processing them are the jobs it
    holds plus the final notifications it sent. -/
theorem C01_job_accounting {cfg : HConfig} {env : Env} {h : List (Tr Q)} {s : HState Q}
    (hr : Run cfg env h s) (j : String) :
    h.countP (Spec.accepts j) + h.countP (Spec.adopts j)
      = (heldJobs s).count j + (emitted h).countP (Spec.isFinal j) := by
  refine Run.induct (P := fun h s => h.countP (Spec.accepts j) + h.countP (Spec.adopts j)
      = (heldJobs s).count j + (emitted h).countP (Spec.isFinal j)) ?_ ?_ hr
  · simp [heldJobs, emitted, HState.init, busy_empty, que_empty]
  · intro h s m s' evs _ _ _ ih _ hi
    have h1 := hi.steps.held_count (fun r => r.jobId = j)
    have h2 := entering_eq hi j
    unfold entering at h2
    have h3 : (evs.map (fun e => e.leaves.countP (fun r => r.jobId = j))).sum
        = s'.outs.countP (Spec.isFinal j) := by
      rw [hi.outs, countP_msgsOf]
      exact sum_map_congr (fun e he => (final_msgs (hi.script.shape e he) j).symm)
    rw [← heldJobs_count, ← heldJobs_count, h2, h3] at h1
    have h4 : emitted (h ++ [⟨s, m, s'⟩]) = emitted h ++ s'.outs := by simp [emitted, Tr.outs]
    rw [h4]
    simp only [List.countP_append, List.countP_singleton]
    omega

/-- **C02.** If a job id was accepted exactly once and never adopted, at most one final notification
    is sent for it, and while none has been sent the broker holds exactly one job with this id. -/
theorem C02_one_final_status {cfg : HConfig} {env : Env} {h : List (Tr Q)} {s : HState Q}
    (hr : Run cfg env h s) {j : String} (ha : h.countP (Spec.accepts j) = 1)
    (hn : h.countP (Spec.adopts j) = 0) :
    (emitted h).countP (Spec.isFinal j) ≤ 1 ∧
      ((heldJobs s).count j = 1 ↔ (emitted h).countP (Spec.isFinal j) = 0) := by
  have := C01_job_accounting hr j
  omega

/-- A history for the non-vacuity checks: two workers, three jobs; one finishes, one fails, one is
    adopted from a worker that was already processing it. -/
def accountingMsgs : List Msg :=
  [fromW "w1" ["init", "group", "env=c", "", "description=first"],
   fromC "client" ["eval", "J1", "env=c", "meta.a=1", "", "http://x", "y"],
   fromC "client" ["eval", "J2", "env=c", "", "z"],
   fromW "w2" ["init", "group", "env=java", "", "current_job=J3"],
   fromW "w1" ["done", "J1", "OK"],
   fromW "w1" ["done", "J2", "INTERNAL_ERROR", "disk full"],
   fromW "w2" ["done", "J3", "OK"],
   tick "1500"]

/-- Facts about that history, for either queue manager. -/
def accountingCheck {Q : Type} [QueueManager Q] (h : List (Tr Q)) : Bool :=
  h.countP (Spec.accepts "J1") == 1 && h.countP (Spec.adopts "J1") == 0 &&
  h.countP (Spec.accepts "J2") == 1 && h.countP (Spec.adopts "J2") == 0 &&
  h.countP (Spec.accepts "J3") == 0 && h.countP (Spec.adopts "J3") == 1 &&
  (emitted h).countP (Spec.isFinal "J1") == 1 && (emitted h).countP (Spec.isFinal "J2") == 0 &&
  (emitted h).countP (Spec.isFinal "J3") == 1

example : ∃ h s, Run (Q := Single) cfg0 env0 h s ∧ accountingCheck h = true :=
  exists_run accountingMsgs (fun h _ => accountingCheck h) (by decide +kernel)

example : ∃ h s, Run (Q := Multi) cfg0 env0 h s ∧ accountingCheck h = true :=
  exists_run accountingMsgs (fun h _ => accountingCheck h) (by decide +kernel)

end Broker
