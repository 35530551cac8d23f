import Verif.Proof.Reports
import Verif.Props.Accounting
import Mathlib.Data.List.Induction

/-!
# C03-C06, C52: dispatching jobs to workers
-/

namespace Broker

open LawfulQM

variable {Q : Type} [QueueManager Q] [LawfulQM Q]

/-- **C03.** With `max_request_failures = N`, at most `max 1 N` evaluation messages are sent per
    acceptance of a job. -/
theorem C03_bounded_dispatches {cfg : HConfig} {env : Env} {h : List (Tr Q)} {s : HState Q}
    (hr : Run cfg env h s) (j : String) :
    (emitted h).countP (Spec.isEvalOf j) ≤ h.countP (Spec.accepts j) * max 1 cfg.maxFailures := by
  suffices hs : pot (dispatchW cfg.maxFailures j) (ls s 0) + (emitted h).countP (Spec.isEvalOf j)
      ≤ h.countP (Spec.accepts j) * max 1 cfg.maxFailures by omega
  refine Run.induct (P := fun h s => pot (dispatchW cfg.maxFailures j) (ls s 0)
      + (emitted h).countP (Spec.isEvalOf j)
      ≤ h.countP (Spec.accepts j) * max 1 cfg.maxFailures) ?_ ?_ hr
  · simp [pot, ls, emitted, HState.init, busy_empty, que_empty]
  · intro h s m s' evs hr _ hl ih _ hi
    have h1 := hi.steps.pot cfg.maxFailures_lt (dispatchLaws cfg.maxFailures_lt j) hl
    rw [accept_gain hi] at h1
    have h2 : (evs.map (dispatchCost j)).sum = s'.outs.countP (Spec.isEvalOf j) := by
      rw [hi.outs, countP_msgsOf]
      exact sum_map_congr (fun e he => (evalOf_count hr hi he j).symm)
    rw [h2] at h1
    have h4 : emitted (h ++ [⟨s, m, s'⟩]) = emitted h ++ s'.outs := by simp [emitted, Tr.outs]
    rw [h4]
    simp only [List.countP_append, List.countP_singleton, Nat.add_mul]
    by_cases ha : Spec.accepts j (⟨s, m, s'⟩ : Tr Q) = true
    · rw [if_pos ha] at h1 ⊢; omega
    · rw [if_neg ha] at h1 ⊢; omega

/-- A job accepted from a client: the message that brought it. -/
structure JobOrigin (c : Tr Q) (j : String) (fs : List String) : Prop where
  key : c.msg.key = "clients"
  data : c.msg.data = "eval" :: j :: fs
  delim : "" ∈ fs
  accepted : Spec.accepts j c = true

/-- A worker registered by an `init` message. -/
structure WorkerOrigin (i : Tr Q) (w : Worker) (ds : List String) : Prop where
  key : i.msg.key = "workers"
  identity : i.msg.identity = w.identity
  data : i.msg.data = "init" :: w.hwgroup :: ds
  new : w ∉ i.pre.workers ∧ w ∈ i.post.workers

/-- Every evaluation message belongs to an accepted job and a capable registered worker. -/
theorem eval_origin {cfg : HConfig} {env : Env} {h1 h2 : List (Tr Q)} {t : Tr Q} {s : HState Q}
    (hr : Run cfg env (h1 ++ t :: h2) s) {o : Msg} (ho : o ∈ t.outs) (he : Spec.isEval o = true) :
    ∃ c ∈ h1 ++ [t], ∃ i ∈ h1 ++ [t], ∃ j fs w ds, JobOrigin c j fs ∧ WorkerOrigin i w ds ∧
      (w ∈ t.pre.workers ∨ w ∈ t.post.workers) ∧ o.identity = w.identity ∧
      o.data = "eval" :: j :: Spec.payloadFrames fs ∧
      Spec.Capable w.hwgroup (Spec.headerFrames ds) (Spec.headerFrames fs) := by
  obtain ⟨hr1, hstep, _⟩ := hr.prefix
  obtain ⟨evs, hi⟩ := step_info hr1.inv.1 hstep
  obtain ⟨e, hev, w, r, hg, rfl⟩ := hi.eval_ev ho he
  obtain ⟨g1, g2, ⟨c, hc, fs, hs, md, extra, hcf⟩, ⟨i, hi', ds, hif⟩, g5⟩ := hr1.gives hi hev hg
  obtain ⟨e1, e2, e3⟩ := evalHeaders_some _ _ _ _ hcf.parse
  refine ⟨c, hc, i, hi', r.jobId, fs, w, ds, ⟨hcf.key, hcf.data, e1, hcf.accepted⟩,
    ⟨hif.key, hif.identity, hif.data, ?_, ?_⟩, g5, rfl, ?_, ?_⟩
  · intro hm
    exact hif.fresh (List.mem_map.2 ⟨w, hm, rfl⟩)
  · rw [hif.new]; simp
  · show r.frames = _
    rw [hcf.eq]
    simp only [Req.full] at e2 ⊢
    rw [e2]
  · have : r.headers = hs := by rw [hcf.eq]; rfl
    rw [this] at g2
    exact (can_iff hif.created hcf.parse).1 g2

/-- **C04.** Every evaluation message goes to the identity of a registered worker whose `init`
    message declared everything the client's request asks for. -/
theorem C04_capable_workers {cfg : HConfig} {env : Env} {h1 h2 : List (Tr Q)} {t : Tr Q}
    {s : HState Q} (hr : Run cfg env (h1 ++ t :: h2) s) {o : Msg} (ho : o ∈ t.outs)
    (he : Spec.isEval o = true) :
    ∃ c ∈ h1 ++ [t], ∃ i ∈ h1 ++ [t], ∃ j fs w ds, JobOrigin c j fs ∧ WorkerOrigin i w ds ∧
      (w ∈ t.pre.workers ∨ w ∈ t.post.workers) ∧ o.identity = w.identity ∧
      o.data = "eval" :: j :: Spec.payloadFrames fs ∧
      Spec.Capable w.hwgroup (Spec.headerFrames ds) (Spec.headerFrames fs) :=
  eval_origin hr ho he

/-- **C05.** Every evaluation message is `eval`, the job id and the frames after the delimiter of an
    accepted client message. -/
theorem C05_payload_integrity {cfg : HConfig} {env : Env} {h1 h2 : List (Tr Q)} {t : Tr Q}
    {s : HState Q} (hr : Run cfg env (h1 ++ t :: h2) s) {o : Msg} (ho : o ∈ t.outs)
    (he : Spec.isEval o = true) :
    ∃ c ∈ h1 ++ [t], ∃ j hdr payload, c.msg.key = "clients" ∧ Spec.accepts j c = true ∧
      c.msg.data = "eval" :: j :: (hdr ++ "" :: payload) ∧ "" ∉ hdr ∧
      o.data = "eval" :: j :: payload := by
  obtain ⟨c, hc, i, _, j, fs, w, ds, hj, _, _, _, hd, _⟩ := eval_origin hr ho he
  refine ⟨c, hc, j, Spec.headerFrames fs, Spec.payloadFrames fs, hj.key, hj.accepted, ?_, ?_, hd⟩
  · rw [hj.data]
    congr 2
    exact split_frames hj.delim
  · exact not_mem_headerFrames fs

/-- **C06.** A worker identity is never sent more evaluation messages than it sent `done` and `init`
    messages. -/
theorem C06_one_outstanding_job {cfg : HConfig} {env : Env} {h : List (Tr Q)} {s : HState Q}
    (hr : Run cfg env h s) (i : String) :
    (emitted h).countP (Spec.isEvalTo i)
      ≤ h.countP (Spec.fromWorker "done" i) + h.countP (Spec.fromWorker "init" i) := by
  suffices hs : (ls s 0).regI i + (emitted h).countP (Spec.isEvalTo i) ≤ (ls s 0).busyI i
      + h.countP (Spec.fromWorker "done" i) + h.countP (Spec.fromWorker "init" i) by
    have := hr.inv.1.busyI_le i
    omega
  refine Run.induct (P := fun h s => (ls s 0).regI i + (emitted h).countP (Spec.isEvalTo i)
      ≤ (ls s 0).busyI i + h.countP (Spec.fromWorker "done" i)
        + h.countP (Spec.fromWorker "init" i)) ?_ ?_ hr
  · simp [LS.regI, LS.busyI, ls, emitted, HState.init, busy_empty, reg_empty]
  · intro h s m s' evs hr _ hl ih _ hi
    have h1 := hi.steps.flow i
    obtain ⟨h2, h3⟩ := hi.regs_reps i
    have h5 : (evs.map (Ev.givesTo i)).sum = s'.outs.countP (Spec.isEvalTo i) := by
      rw [hi.outs, countP_msgsOf]
      exact sum_map_congr (fun e he => (evalTo_count hr hi he i).symm)
    have h4 : emitted (h ++ [⟨s, m, s'⟩]) = emitted h ++ s'.outs := by simp [emitted, Tr.outs]
    rw [h4]
    simp only [List.countP_append, List.countP_singleton]
    omega

/-- **C52.** If from some point on no job is accepted or adopted, the number of reports handled from
    then on is at most the number of jobs held at that point times `max 1 N`. -/
theorem C52_termination {cfg : HConfig} {env : Env} {h1 h2 : List (Tr Q)} {s1 s : HState Q}
    (hr1 : Run cfg env h1 s1) (hr : Run cfg env (h1 ++ h2) s)
    (hno : ∀ t ∈ h2, ∀ j, Spec.accepts j t = false ∧ Spec.adopts j t = false) :
    h2.countP Spec.handledReport ≤ (heldJobs s1).card * max 1 cfg.maxFailures := by
  have hcard : (heldJobs s1).card = (ls s1 0).held.card := by
    simp [heldJobs, LS.held, ls]
  rw [hcard]
  refine Nat.le_trans ?_ (report_pot_le cfg.maxFailures (ls s1 0))
  suffices hs : pot (reportW cfg.maxFailures) (ls s 0) + h2.countP Spec.handledReport
      ≤ pot (reportW cfg.maxFailures) (ls s1 0) by omega
  induction h2 using List.reverseRecOn generalizing s with
  | nil =>
    rw [List.append_nil] at hr
    rw [hr.unique hr1]; simp
  | append_singleton h2 t ih =>
    rw [← List.append_assoc] at hr
    obtain ⟨hr2, hstep, hr3⟩ := Run.prefix (h2 := []) hr
    have hst : s = t.post := hr.unique hr3
    subst hst
    obtain ⟨evs, hi⟩ := step_info hr2.inv.1 hstep
    have k1 := ih hr2 (fun x hx => hno x (List.mem_append.2 (Or.inl hx)))
    have k2 := hi.steps.pot cfg.maxFailures_lt (reportLaws cfg.maxFailures_lt) hr2.inv.2
    rw [report_gain_zero hi (fun j => hno t (by simp) j)] at k2
    have k3 : (if Spec.handledReport t = true then 1 else 0) ≤ _ := handled_cost hr2.inv.1 hi
    simp only [List.countP_append, List.countP_singleton]
    omega

/-! ## The hypotheses can be met

One history with two workers: job `J1` is dispatched three times (two internal errors, then success;
the limit of `cfg0` is 3), job `J2` waits and is dispatched when a worker becomes free. -/

/-- The messages of that history. -/
def dispatchMsgs : List Msg :=
  [fromW "w1" ["init", "group", "env=c", "env=java", "threads=8", "", "description=first"],
   fromC "client" ["eval", "J1", "hwgroup=x|group", "env=java", "threads=4", "meta.a=1", "", "u", "v"],
   fromC "client" ["eval", "J2", "env=c", "", "z"],
   fromW "w1" ["done", "J1", "INTERNAL_ERROR", "e1"],
   fromW "w2" ["init", "group", "env=java", "threads=4"],
   fromW "w1" ["done", "J1", "INTERNAL_ERROR", "e2"],
   fromW "w1" ["done", "J7", "OK"],
   tick "100",
   fromW "w1" ["done", "J1", "OK"],
   fromW "w1" ["done", "J2", "OK"]]

/-- What happens there: dispatches of `J1`, evaluation messages to `w1`, handled reports and final
    notifications of `J1`. -/
def dispatchCheck {Q : Type} [QueueManager Q] (h : List (Tr Q)) (a b c d : Nat) : Bool :=
  (emitted h).countP (Spec.isEvalOf "J1") == a && (emitted h).countP (Spec.isEvalTo "w1") == b &&
  h.countP Spec.handledReport == c && (emitted h).countP (Spec.isFinal "J1") == d

/-- C03 is tight: three dispatches of a job accepted once; C06: four evaluation messages, five `done`
    and one `init` message of `w1`; C52: four reports. -/
example : ∃ h s, Run (Q := Single) cfg0 env0 h s ∧ dispatchCheck h 3 4 4 1 = true :=
  exists_run dispatchMsgs (fun h _ => dispatchCheck h 3 4 4 1) (by decide +kernel)

example : ∃ h s, Run (Q := Multi) cfg0 env0 h s ∧ dispatchCheck h 2 2 1 0 = true :=
  exists_run (dispatchMsgs.take 4) (fun h _ => dispatchCheck h 2 2 1 0) (by decide +kernel)

/-- From the third message on no job is accepted or adopted there (hypothesis of C52). -/
example : ∃ h s, Run (Q := Single) cfg0 env0 h s ∧ (decide (h.length = 10) && (h.drop 3).all (fun t =>
    !(t.msg.key == "clients") && !(t.msg.data.contains "current_job=J1"))) = true :=
  exists_run dispatchMsgs _ (by decide +kernel)

end Broker
