import Verif.Proof.Order
import Verif.Proof.Counters
import Verif.Props.Commands

/-!
# C16-C19, C44: the queues

The representation of the queues is part of the statements: `jobs` of the single-queue manager,
`queues` and `ring` of the multi-queue manager.
-/

set_option linter.unusedSectionVars false

namespace Broker

open LawfulQM

variable {Q : Type} [QueueManager Q] [LawfulQM Q]

/-! ## C16 -/

/-- A held job comes from a client's message, whose header frames tell which workers can do it. -/
theorem Run.held_origin {cfg : HConfig} {env : Env} {h : List (Tr Q)} {s : HState Q}
    (hr : Run cfg env h s) {r : Req} (hh : r ∈ (ls s 0).held) (hc : r.complete = true) :
    ∃ c ∈ h, ∃ fs, JobOrigin c r.jobId fs ∧ r.frames = "eval" :: r.jobId :: Spec.payloadFrames fs ∧
      ∃ x, evalHeaders fs [] [] = .ok (some x) ∧ r.headers = x.1 := by
  obtain ⟨c, hch, fs, hs, md, extra, hcf⟩ := hr.prov.1 r hh hc
  obtain ⟨e1, e2, e3⟩ := evalHeaders_some _ _ _ _ hcf.parse
  refine ⟨c, hch, fs, ⟨hcf.key, hcf.data, e1, hcf.accepted⟩, ?_, _, hcf.parse, ?_⟩
  · rw [hcf.eq]
    simp only [Req.full] at e2 ⊢
    rw [e2]
  · rw [hcf.eq]; rfl

/-- A registered worker comes from an `init` message. -/
theorem Run.worker_origin {cfg : HConfig} {env : Env} {h : List (Tr Q)} {s : HState Q}
    (hr : Run cfg env h s) {w : Worker} (hw : w ∈ s.workers) :
    ∃ i ∈ h, ∃ ds, WorkerOrigin i w ds := by
  obtain ⟨i, hi, ds, hf⟩ := hr.prov.2 w (hr.inv.1.mem_reg.1 hw)
  refine ⟨i, hi, ds, hf.key, hf.identity, hf.data, ?_, by rw [hf.new]; simp⟩
  exact fun hm => hf.fresh (List.mem_map.2 ⟨w, hm, rfl⟩)

/-- The request is the one a client's message with these frames asked for. -/
structure Requested (h : List (Tr Q)) (r : Req) (fs : List String) : Prop where
  origin : ∃ c ∈ h, JobOrigin c r.jobId fs
  frames : r.frames = "eval" :: r.jobId :: Spec.payloadFrames fs

/-- The worker declared all the request frames ask for. -/
def DeclaredFor (h : List (Tr Q)) (w : Worker) (fs : List String) : Prop :=
  ∃ i ∈ h, ∃ ds, WorkerOrigin i w ds ∧
    Spec.Capable w.hwgroup (Spec.headerFrames ds) (Spec.headerFrames fs)

theorem Run.waiting_origin {cfg : HConfig} {env : Env} {h : List (Tr Q)} {s : HState Q}
    (hr : Run cfg env h s) {r : Req} (hq : r ∈ que s.queue) :
    ∃ fs, Requested h r fs ∧ (∀ w ∈ s.workers, w.Can r.headers ↔ DeclaredFor h w fs) ∧
      ∃ x, evalHeaders fs [] [] = .ok (some x) ∧ r.headers = x.1 := by
  have hh : r ∈ (ls s 0).held := by
    rw [LS.mem_held]; exact .inr (.inl hq)
  obtain ⟨c, hc, fs, h1, h2, x, h3, h4⟩ := hr.held_origin hh (hr.inv.2.queC r hq)
  refine ⟨fs, ⟨⟨c, hc, h1⟩, h2⟩, fun w hw => ?_, x, h3, h4⟩
  rw [h4]
  constructor
  · intro hcan
    obtain ⟨i, hi, ds, ho⟩ := hr.worker_origin hw
    exact ⟨i, hi, ds, ho, (origin_can hr h3 hi ho).1 hcan⟩
  · rintro ⟨i, hi, ds, ho, hcap⟩
    exact (origin_can hr h3 hi ho).2 hcap

/-- **C16, single-queue manager.** Every waiting job was requested by a client, and some registered
    worker declared all it asks for. -/
theorem C16_serviceable_single {cfg : HConfig} {env : Env} {h : List (Tr Single)}
    {s : HState Single} (hr : Run cfg env h s) {e : Entry} (he : e ∈ s.queue.jobs) :
    ∃ fs, Requested h e.1 fs ∧ ∃ w ∈ s.workers, DeclaredFor h w fs := by
  have hq : e.1 ∈ que s.queue := by
    simp only [LawfulQM.que, Multiset.mem_coe]
    exact List.mem_map.2 ⟨e, he, rfl⟩
  obtain ⟨fs, h1, h2, _⟩ := hr.waiting_origin hq
  obtain ⟨w, hw, hc⟩ := que_can hr.inv.1.qinv e.1 hq
  exact ⟨fs, h1, w, hr.inv.1.mem_reg.2 hw, (h2 w (hr.inv.1.mem_reg.2 hw)).1 hc⟩

/-- **C16, multi-queue manager.** Every queue belongs to a registered worker, and every job waiting
    in it was requested by a client and the worker declared all it asks for. -/
theorem C16_serviceable_multi {cfg : HConfig} {env : Env} {h : List (Tr Multi)}
    {s : HState Multi} (hr : Run cfg env h s) {w : Worker} {l : List Req}
    (he : (w, l) ∈ s.queue.queues) :
    w ∈ s.workers ∧ ∀ r ∈ l, ∃ fs, Requested h r fs ∧ DeclaredFor h w fs := by
  have hi : Multi.Inv s.queue := hr.inv.1.qinv
  have hw : w ∈ s.workers := hr.inv.1.mem_reg.2 (by
    simp only [LawfulQM.reg, Multiset.mem_coe]
    exact hi.memQue.1 (List.mem_map.2 ⟨_, he, rfl⟩))
  refine ⟨hw, fun r hl => ?_⟩
  have hq : r ∈ que s.queue := by
    simp only [LawfulQM.que, Multiset.mem_coe]
    exact List.mem_flatMap.2 ⟨_, he, hl⟩
  obtain ⟨fs, h1, h2, _⟩ := hr.waiting_origin hq
  exact ⟨fs, h1, (h2 w hw).1 (hi.can _ he r hl)⟩

theorem LSteps.reg_keep {M : Nat} {L L' : LS} {evs : List Ev} (h : LSteps M L evs L')
    (hn : ∀ e ∈ evs, ∀ w c q, e ≠ .expire w c q) {w : Worker} (hw : w ∈ L.reg) : w ∈ L'.reg := by
  induction h with
  | nil => exact hw
  | @cons L L1 L2 e es h _ ih =>
    refine ih (fun e he => hn e (List.mem_cons_of_mem _ he)) ?_
    cases h with
    | register w cur hw' hf hcur => exact Multiset.mem_cons_of_mem hw
    | expire w cur qs => exact absurd rfl (hn _ (by simp) w cur qs)
    | _ => exact hw

theorem que_persist {cfg : HConfig} {env : Env} {h : List (Tr Q)} {m : Msg} {s s' : HState Q}
    (hr : Run cfg env h s) (hs : step cfg env m s = .ok () s') {r : Req}
    (hq : r ∈ que s.queue) (hlost : ∀ w ∈ s'.workers, ¬ w.Can r.headers) :
    ∃ o ∈ s'.outs, Spec.isFailed r.jobId o = true := by
  obtain ⟨evs, hi⟩ := step_info hr.inv.1 hs
  have hh : r ∈ (ls s 0).held := by rw [LS.mem_held]; exact .inr (.inl hq)
  have hpost : r ∉ (ls s' 0).held := by
    rw [LS.mem_held]
    rintro (⟨w, hw⟩ | hw | hw)
    · have hreg := busy_reg hi.inv.qinv _ hw
      exact hlost w (hi.inv.mem_reg.2 hreg) (hi.inv.busyCan _ hw)
    · obtain ⟨w, hreg, hc⟩ := que_can hi.inv.qinv r hw
      exact hlost w (hi.inv.mem_reg.2 hreg) hc
    · exact absurd hw (by simp [ls])
  have hk : m.key = keyTimer := by
    apply Classical.byContradiction
    intro hk
    obtain ⟨w, hw, hc⟩ := que_can hr.inv.1.qinv r hq
    refine hlost w (hi.inv.mem_reg.2 (hi.steps.reg_keep ?_ hw)) hc
    rintro e he w c q rfl
    exact hk (hi.script.shape _ he)
  have h1 := hi.steps.held_count (fun x => x = r)
  have h2 : 0 < (ls s 0).held.countP (fun x => x = r) := Multiset.countP_pos.2 ⟨r, hh, rfl⟩
  have h3 : (ls s' 0).held.countP (fun x => x = r) = 0 := by
    rw [Multiset.countP_eq_zero]
    rintro x hx rfl
    exact hpost hx
  have h4 : ∃ e ∈ evs, r ∈ e.leaves := by
    apply Classical.byContradiction
    intro hno
    have : (evs.map (fun e => e.leaves.countP (fun x => x = r))).sum = 0 := by
      apply List.sum_eq_zero
      intro n hn
      obtain ⟨e, he, rfl⟩ := List.mem_map.1 hn
      rw [Multiset.countP_eq_zero]
      rintro x hx rfl
      exact hno ⟨e, he, hx⟩
    omega
  obtain ⟨e, he, hl⟩ := h4
  have hsh := hi.script.shape _ he
  have hout : ∀ o ∈ e.msgs, o ∈ s'.outs := by
    intro o ho
    rw [hi.outs]
    exact List.mem_flatMap.2 ⟨e, he, ho⟩
  cases e with
  | done w x => exact absurd (hk.symm.trans hsh.1) (by decide)
  | failed w x t => exact absurd (hk.symm.trans hsh.1) (by decide)
  | giveUp x t =>
    simp only [Ev.leaves, Multiset.mem_singleton] at hl
    subst hl
    exact ⟨failMsg r.jobId t, hout _ (by simp [Ev.msgs]), by
      simp [Spec.isFailed, failMsg, keyNotifier]⟩
  | _ => simp [Ev.leaves] at hl

/-- **C16, losing the last capable worker.** If a job waits before a message is handled and no worker
    registered afterwards declared all it asks for, its failure is reported while the message is
    handled. -/
theorem C16_lost_job_reported_single {cfg : HConfig} {env : Env} {h1 h2 : List (Tr Single)}
    {t : Tr Single} {s : HState Single} (hr : Run cfg env (h1 ++ t :: h2) s) {e : Entry}
    (he : e ∈ t.pre.queue.jobs) :
    ∃ fs, Requested h1 e.1 fs ∧
      ((∀ w ∈ t.post.workers, ¬ DeclaredFor (h1 ++ [t]) w fs) →
        ∃ o ∈ t.outs, Spec.isFailed e.1.jobId o = true) := by
  obtain ⟨hr1, hst, hr2⟩ := hr.prefix
  have hq : e.1 ∈ que t.pre.queue := by
    simp only [LawfulQM.que, Multiset.mem_coe]
    exact List.mem_map.2 ⟨e, he, rfl⟩
  obtain ⟨fs, g1, _, x, g2, g3⟩ := hr1.waiting_origin hq
  refine ⟨fs, g1, fun hlost => que_persist hr1 hst hq fun w hw hc => hlost w hw ?_⟩
  obtain ⟨i, hi, ds, ho⟩ := hr2.worker_origin hw
  rw [g3] at hc
  exact ⟨i, hi, ds, ho, (origin_can hr2 g2 hi ho).1 hc⟩

/-- **C16, losing the last capable worker**, for the multi-queue manager. -/
theorem C16_lost_job_reported_multi {cfg : HConfig} {env : Env} {h1 h2 : List (Tr Multi)}
    {t : Tr Multi} {s : HState Multi} (hr : Run cfg env (h1 ++ t :: h2) s) {w0 : Worker}
    {l : List Req} (he : (w0, l) ∈ t.pre.queue.queues) {r : Req} (hl : r ∈ l) :
    ∃ fs, Requested h1 r fs ∧
      ((∀ w ∈ t.post.workers, ¬ DeclaredFor (h1 ++ [t]) w fs) →
        ∃ o ∈ t.outs, Spec.isFailed r.jobId o = true) := by
  obtain ⟨hr1, hst, hr2⟩ := hr.prefix
  have hq : r ∈ que t.pre.queue := by
    simp only [LawfulQM.que, Multiset.mem_coe]
    exact List.mem_flatMap.2 ⟨_, he, hl⟩
  obtain ⟨fs, g1, _, x, g2, g3⟩ := hr1.waiting_origin hq
  refine ⟨fs, g1, fun hlost => que_persist hr1 hst hq fun w hw hc => hlost w hw ?_⟩
  obtain ⟨i, hi, ds, ho⟩ := hr2.worker_origin hw
  rw [g3] at hc
  exact ⟨i, hi, ds, ho, (origin_can hr2 g2 hi ho).1 hc⟩

/-! ## C17 -/

section
variable [Conserving Q]
open Conserving

omit [Conserving Q] in
theorem current_of_busy {s : HState Q} (h : HInv s) {w : Worker} {r : Req}
    (hb : (w, r) ∈ busy s.queue) : (QueueManager.currentRequest s.queue w).1 = some r := by
  exact ((LawfulQM.current h.qinv (busy_reg h.qinv _ hb)).2 r).2 hb

/-- A stall began with an internal error reported by the idle worker, and has lasted since. -/
theorem Run.stall {cfg : HConfig} {env : Env} {h : List (Tr Q)} {s : HState Q}
    (hr : Run cfg env h s) {x : Worker} (hst : Stall s.queue x) :
    ∃ h1 t h2, h = h1 ++ t :: h2 ∧ Spec.failureReport t = true ∧
      (∃ j text, t.msg.data = ["done", j, "INTERNAL_ERROR", text]) ∧
      t.msg.identity = x.identity ∧ x ∈ t.pre.workers ∧ ∀ t' ∈ h2, Stall t'.pre.queue x := by
  induction hr with
  | nil => exact absurd hst (Conserving.empty x)
  | @snoc h s m s' hr hs ih =>
    rcases step_stall hr.inv.1 hs hst with h1 | ⟨r, text, hk, hd, hx, hb⟩
    · obtain ⟨a, t, b, rfl, g1, g2, g3, g4, g5⟩ := ih h1
      refine ⟨a, t, b ++ [⟨s, m, s'⟩], by simp, g1, g2, g3, g4, ?_⟩
      intro t' ht'
      rcases List.mem_append.1 ht' with ht' | ht'
      · exact g5 t' ht'
      · rw [List.mem_singleton] at ht'; subst ht'; exact h1
    · refine ⟨h, ⟨s, m, s'⟩, [], by simp, ?_, ⟨_, _, hd⟩, ?_, (regFind_mem hx).1, by simp⟩
      · refine failureReport_iff.2 ⟨r.jobId, _, text, x, hk, hd, .inr rfl, hx, ?_⟩
        show (QueueManager.currentRequest s.queue x).1.map (·.jobId) = _
        rw [current_of_busy hr.inv.1 hb]; rfl
      · exact (regFind_mem hx).2.symm

end

/-- The queue manager has no request for the worker. -/
def Idle (s : HState Q) (w : Worker) : Prop := (QueueManager.currentRequest s.queue w).1 = none

/-- `Idle` as a Boolean. -/
def isIdleBool (s : HState Q) (w : Worker) : Bool := (QueueManager.currentRequest s.queue w).1.isNone

/-- The last thing this worker reported was a handled internal error, and it has been idle since. -/
def StalledByError (h : List (Tr Q)) (w : Worker) : Prop :=
  ∃ h1 t h2, h = h1 ++ t :: h2 ∧ Spec.failureReport t = true ∧
    (∃ j text, t.msg.data = ["done", j, "INTERNAL_ERROR", text]) ∧
    t.msg.identity = w.identity ∧ w ∈ t.pre.workers ∧ ∀ t' ∈ h2, Idle t'.pre w

/-- **C17, single-queue manager, partial.** If a job waits and a registered worker that declared all
    it asks for is idle, then the last thing this worker reported was an internal error and it has
    been idle since.  Missing: the claim in this situation, where it is false
    (`C17_refuted_single`). -/
theorem C17_work_conservation_single_partial {cfg : HConfig} {env : Env} {h : List (Tr Single)}
    {s : HState Single} (hr : Run cfg env h s) {e : Entry} (he : e ∈ s.queue.jobs) :
    ∃ fs, Requested h e.1 fs ∧
      ∀ w ∈ s.workers, DeclaredFor h w fs → Idle s w → StalledByError h w := by
  have hq : e.1 ∈ que s.queue := by
    simp only [LawfulQM.que, Multiset.mem_coe]
    exact List.mem_map.2 ⟨e, he, rfl⟩
  obtain ⟨fs, h1, h2, _⟩ := hr.waiting_origin hq
  refine ⟨fs, h1, fun w hw hd hid => ?_⟩
  have hmem : w ∈ s.queue.workers := by
    have := hr.inv.1.mem_reg.1 hw
    simpa [LawfulQM.reg] using this
  have hst : Conserving.Stall s.queue w := ⟨hmem, hid, e, he, (h2 w hw).2 hd⟩
  obtain ⟨a, t, b, g1, g2, g3, g4, g5, g6⟩ := hr.stall hst
  exact ⟨a, t, b, g1, g2, g3, g4, g5, fun t' ht' => (g6 t' ht').2.1⟩

/-- **C17, multi-queue manager, partial.** If a job waits in the queue of an idle worker, then the
    last thing this worker reported was an internal error and it has been idle since.  Missing: the
    claim in this situation, where it is false (`C17_refuted_multi`). -/
theorem C17_work_conservation_multi_partial {cfg : HConfig} {env : Env} {h : List (Tr Multi)}
    {s : HState Multi} (hr : Run cfg env h s) {w : Worker} {l : List Req}
    (he : (w, l) ∈ s.queue.queues) (hl : l ≠ []) (hid : Idle s w) : StalledByError h w := by
  have hi : Multi.Inv s.queue := hr.inv.1.qinv
  have hw : w ∈ s.queue.ring := hi.memQue.1 (List.mem_map.2 ⟨_, he, rfl⟩)
  have hq : s.queue.queues.getD w [] = l := by
    obtain ⟨v, a, b, e1, e2, _⟩ := hi.splitQue hw
    have : (w, v) ∈ s.queue.queues := by rw [e1]; simp
    rw [e2]
    exact (hi.queSorted.unique this he rfl).2
  have hst : Conserving.Stall s.queue w := ⟨hw, hid, by rw [hq]; exact hl⟩
  obtain ⟨a, t, b, g1, g2, g3, g4, g5, g6⟩ := hr.stall hst
  exact ⟨a, t, b, g1, g2, g3, g4, g5, fun t' ht' => (g6 t' ht').2.1⟩

/-! ## C18 -/

/-- **C18.** Single-queue manager: an evaluation message sent while a message from a worker is
    handled either gives out again the job the worker just reported an internal error for, or it gives
    to this worker a waiting job such that no waiting job whose demands the worker declared arrived
    earlier; the other jobs go on waiting. -/
theorem C18_first_come_first_served {cfg : HConfig} {env : Env} {h1 h2 : List (Tr Single)}
    {t : Tr Single} {s : HState Single} (hr : Run cfg env (h1 ++ t :: h2) s)
    (hk : t.msg.key = "workers") {o : Msg} (ho : o ∈ t.outs) (he : Spec.isEval o = true) :
    (∃ j text, t.msg.data = ["done", j, "INTERNAL_ERROR", text] ∧ Spec.isEvalOf j o = true ∧
      ∀ e ∈ t.pre.queue.jobs, e ∈ t.post.queue.jobs) ∨
    ∃ w ∈ t.post.workers, ∃ e ∈ t.pre.queue.jobs, w.identity = t.msg.identity ∧
      o = ⟨"workers", w.identity, e.1.frames⟩ ∧
      (∃ fs, Requested h1 e.1 fs ∧ DeclaredFor (h1 ++ [t]) w fs) ∧
      (∀ e' ∈ t.pre.queue.jobs, ∃ fs, Requested h1 e'.1 fs ∧
        (DeclaredFor (h1 ++ [t]) w fs → e.2 ≤ e'.2)) ∧
      (e :: t.post.queue.jobs).Perm t.pre.queue.jobs := by
  obtain ⟨hr1, hst, hr2⟩ := hr.prefix
  rcases step_takes hr1.inv.1 hst hk ho he with ⟨w, r, text, g1, rfl, g0, gc, g2⟩ |
      ⟨w, e, rfl, g1, g2⟩
  · left
    refine ⟨r.jobId, text, g1, ?_, g2⟩
    obtain ⟨w0, hb⟩ := g0
    have hh : r ∈ (ls t.pre 0).held := by rw [LS.mem_held]; exact .inl ⟨w0, hb⟩
    obtain ⟨extra, hf⟩ := (hr1.prov.1 r hh gc).frames
    simp [Spec.isEvalOf, sendMsg, hf, keyWorkers]
  · right
    have hw : w ∈ t.post.workers := hr2.inv.1.mem_reg.2 (by simpa [LawfulQM.reg] using g2.reg)
    have hin : ∀ e ∈ t.pre.queue.jobs, e.1 ∈ que t.pre.queue := by
      intro e he
      simp only [LawfulQM.que, Multiset.mem_coe]
      exact List.mem_map.2 ⟨e, he, rfl⟩
    have horig : ∀ e ∈ t.pre.queue.jobs, ∃ fs, Requested h1 e.1 fs ∧
        (w.Can e.1.headers ↔ DeclaredFor (h1 ++ [t]) w fs) := by
      intro e he
      obtain ⟨fs, k1, _, x, k2, k3⟩ := hr1.waiting_origin (hin e he)
      refine ⟨fs, k1, ?_⟩
      rw [k3]
      constructor
      · intro hc
        obtain ⟨i, hi, ds, hwo⟩ := hr2.worker_origin hw
        exact ⟨i, hi, ds, hwo, (origin_can hr2 k2 hi hwo).1 hc⟩
      · rintro ⟨i, hi, ds, hwo, hc⟩
        exact (origin_can hr2 k2 hi hwo).2 hc
    obtain ⟨fs, k1, k2⟩ := horig e g2.mem
    refine ⟨w, hw, e, g2.mem, g1, rfl, ⟨fs, k1, k2.1 g2.can⟩, ?_, g2.rest⟩
    intro e' he'
    obtain ⟨fs', k3, k4⟩ := horig e' he'
    exact ⟨fs', k3, fun hd => g2.first e' he' (k4.2 hd)⟩

/-- **C18, arrival times.** The arrival time of a waiting job is a reading of the clock made while the
    message was handled that put the job into the queue, where it has been waiting since. -/
theorem C18_arrival_time {cfg : HConfig} {env : Env} {h : List (Tr Single)} {s : HState Single}
    (hr : Run cfg env h s) {e : Entry} (he : e ∈ s.queue.jobs) :
    ∃ h1 t h2, h = h1 ++ t :: h2 ∧ e ∈ t.post.queue.jobs ∧ (∀ t' ∈ h2, e ∈ t'.pre.queue.jobs) ∧
      ∃ k, t.pre.clockReads ≤ k ∧ k < t.post.clockReads ∧ e.2 = env.clock k := by
  induction hr with
  | nil => simp [HState.init, QueueManager.empty] at he
  | @snoc h s m s' hr hs ih =>
    obtain ⟨ops, hd, _⟩ := step_drv hr.inv.1 hs
    rcases Single.jobs_path hd.path hr.inv.1.qinv he with h1 | ⟨now, r, res, h1, rfl⟩
    · obtain ⟨a, t, b, rfl, g1, g2, g3⟩ := ih h1
      refine ⟨a, t, b ++ [⟨s, m, s'⟩], by simp, g1, ?_, g3⟩
      intro t' ht'
      rcases List.mem_append.1 ht' with ht' | ht'
      · exact g2 t' ht'
      · rw [List.mem_singleton] at ht'; subst ht'; exact h1
    · obtain ⟨k, k1, k2, k3⟩ := hd.clock now r res h1
      exact ⟨h, ⟨s, m, s'⟩, [], by simp, he, by simp, k, k1, k2, k3⟩

/-! ## C19 -/

/-- **C19, queues.** Multi-queue manager: while a worker stays registered, handling a message either
    appends jobs it can do to its queue, or takes the first job from its queue and sends it to the
    worker; the latter happens only when the worker reports a job as done. -/
theorem C19_queue_step {cfg : HConfig} {env : Env} {h1 h2 : List (Tr Multi)} {t : Tr Multi}
    {s : HState Multi} (hr : Run cfg env (h1 ++ t :: h2) s) {w : Worker} (hw : w ∈ t.pre.workers)
    (hw' : w ∈ t.post.workers) :
    (∃ added, t.post.queue.of w = t.pre.queue.of w ++ added) ∨
    ∃ r, t.pre.queue.of w = r :: t.post.queue.of w ∧
      t.outs.filter Spec.isEval = [⟨"workers", w.identity, r.frames⟩] ∧
      t.msg.key = "workers" ∧ t.msg.identity = w.identity ∧ t.msg.data.head? = some "done" := by
  obtain ⟨hr1, hst, hr2⟩ := hr.prefix
  rcases step_of hr1.inv.1 hst hw hw' hr2.inv.1 with ⟨added, g1, _⟩ | ⟨r, g1, g2, g3, g4, g5⟩
  · exact .inl ⟨added, g1⟩
  · refine .inr ⟨r, g1, ?_, g3, g4, g5⟩
    have hi : Multi.Inv t.pre.queue := hr1.inv.1.qinv
    have hq : r ∈ que t.pre.queue := by
      simp only [LawfulQM.que, Multiset.mem_coe]
      obtain ⟨v, a, b, e1, e2, _⟩ := hi.splitQue (mem_ring hr1.inv.1 hw)
      refine List.mem_flatMap.2 ⟨(w, v), by rw [e1]; simp, ?_⟩
      have : t.pre.queue.of w = v := e2
      rw [g1] at this
      rw [← this]; simp
    obtain ⟨fs, k, _⟩ := hr1.waiting_origin hq
    show t.post.outs.filter Spec.isEval = _
    rw [← evals_isEval, g2, evals_isEval]
    simp [evals, Spec.isEval, sendMsg, k.frames, keyWorkers]

/-- **C19, order.** Multi-queue manager: while a worker stays registered, the jobs taken from its queue
    are taken in the order in which jobs were waiting and being added, and they are sent to the worker
    in this order. -/
theorem C19_fifo {cfg : HConfig} {env : Env} {h1 h2 : List (Tr Multi)} {s1 s : HState Multi}
    (hr1 : Run cfg env h1 s1) (hr : Run cfg env (h1 ++ h2) s) {w : Worker} (hw : w ∈ s.workers)
    (hreg : ∀ t ∈ h2, w ∈ t.pre.workers) :
    ∃ added taken, s1.queue.of w ++ added = taken ++ s.queue.of w ∧
      (taken.map (fun r => (⟨"workers", w.identity, r.frames⟩ : Msg))).Sublist (emitted h2) := by
  induction h2 using List.reverseRecOn generalizing s with
  | nil =>
    rw [List.append_nil] at hr
    rw [hr.unique hr1]
    exact ⟨[], [], by simp, by simp⟩
  | append_singleton h2 t ih =>
    rw [← List.append_assoc] at hr
    obtain ⟨hr2, hstep, hr3⟩ := Run.prefix (h2 := []) hr
    have hst : s = t.post := hr.unique hr3
    subst hst
    have hwt := hreg t (by simp)
    obtain ⟨added, taken, g1, g2⟩ := ih hr2 hwt (fun x hx => hreg x (List.mem_append.2 (.inl hx)))
    have hem : emitted (h2 ++ [t]) = emitted h2 ++ t.outs := by simp [emitted]
    rcases C19_queue_step hr hwt hw with ⟨more, k⟩ | ⟨r, k, k2, _⟩
    · refine ⟨added ++ more, taken, ?_, ?_⟩
      · rw [k, ← List.append_assoc, g1, List.append_assoc]
      · rw [hem]; exact g2.trans (List.sublist_append_left _ _)
    · refine ⟨added, taken ++ [r], ?_, ?_⟩
      · rw [g1, k]; simp
      · rw [hem, List.map_append]
        refine g2.append ?_
        have : [(⟨"workers", w.identity, r.frames⟩ : Msg)] = t.outs.filter Spec.isEval := k2.symm
        rw [List.map_cons, List.map_nil, this]
        exact List.filter_sublist

/-- Accepting a job changes the queues. -/
theorem accept_changes {cfg : HConfig} {env : Env} {m : Msg} {s s' : HState Q} (h : HInv s)
    (hs : step cfg env m s = .ok () s') {j : String}
    (ha : Spec.accepts j (⟨s, m, s'⟩ : Tr Q) = true) : s'.queue ≠ s.queue := by
  intro hq
  obtain ⟨evs, hi⟩ := step_info h hs
  have h1 := hi.steps.held_count (fun r => r.jobId = j)
  have h2 := entering_eq hi j
  unfold entering at h2
  have hk : m.key = keyClients := by
    have := ha
    simp [Spec.accepts] at this
    exact this.1.1
  have h3 : (evs.map (fun e => e.leaves.countP (fun r => r.jobId = j))).sum = 0 := by
    apply List.sum_eq_zero
    intro n hn
    obtain ⟨e, he, rfl⟩ := List.mem_map.1 hn
    have hsh := hi.script.shape _ he
    cases e with
    | done w x => exact absurd (hk.symm.trans hsh.1) (by decide)
    | failed w x t => exact absurd (hk.symm.trans hsh.1) (by decide)
    | giveUp x t => rcases hsh with hsh | hsh <;> exact absurd (hk.symm.trans hsh) (by decide)
    | _ => rfl
  have h4 : (ls s' 0).held = (ls s 0).held := by simp [LS.held, ls, hq]
  rw [h2, h3, h4, if_pos ha] at h1
  omega

/-- **C19, rotation.** Multi-queue manager: an accepted job goes to the first worker of the ring that
    declared all it asks for, and this worker moves to the end.  If it is idle it is sent the job at
    once, otherwise the job joins the end of its queue. -/
theorem C19_rotation {cfg : HConfig} {env : Env} {h1 h2 : List (Tr Multi)} {t : Tr Multi}
    {s : HState Multi} (hr : Run cfg env (h1 ++ t :: h2) s) {j : String} {fs : List String}
    (hd : t.msg.data = "eval" :: j :: fs) (ha : Spec.accepts j t = true) :
    ∃ l1 w l2, t.pre.queue.ring = l1 ++ w :: l2 ∧ t.post.queue.ring = l1 ++ l2 ++ [w] ∧
      DeclaredFor h1 w fs ∧ (∀ x ∈ l1, ¬ DeclaredFor h1 x fs) ∧
      ((Idle t.pre w ∧ t.outs.filter Spec.isEval =
          [⟨"workers", w.identity, "eval" :: j :: Spec.payloadFrames fs⟩] ∧
          t.post.queue.queues = t.pre.queue.queues) ∨
       (¬ Idle t.pre w ∧ t.outs.filter Spec.isEval = [] ∧
          ∃ r, r.jobId = j ∧ r.frames = "eval" :: j :: Spec.payloadFrames fs ∧
            t.post.queue.of w = t.pre.queue.of w ++ [r])) := by
  obtain ⟨hr1, hst, _⟩ := hr.prefix
  obtain ⟨ops, hp, hsh, hout⟩ := step_ops hr1.inv.1 hst
  have hch := accept_changes hr1.inv.1 hst ha
  have hk : t.msg.key = keyClients := by
    have := ha
    simp [Spec.accepts] at this
    exact this.1.1
  have hi : Multi.Inv t.pre.queue := hr1.inv.1.qinv
  cases hsh with
  | none => exact absurd hp.nil_inv hch
  | @eval r now res fs' extra hk' hd' hev hf hc =>
    rw [hd] at hd'
    simp only [List.cons.injEq, true_and] at hd'
    obtain ⟨rfl, rfl⟩ := hd'
    obtain ⟨_, e2, _⟩ := evalHeaders_some _ _ _ _ hev
    have hfr : r.frames = "eval" :: r.jobId :: Spec.payloadFrames fs := by
      rw [hf]; simp only at e2; rw [e2]
    have hcan : ∀ w ∈ t.pre.queue.ring, w.Can r.headers ↔ DeclaredFor h1 w fs := by
      intro w hw
      have hw' : w ∈ t.pre.workers := hr1.inv.1.mem_reg.2 (by simpa [LawfulQM.reg] using hw)
      constructor
      · intro hc
        obtain ⟨i, hih, ds, ho⟩ := hr1.worker_origin hw'
        exact ⟨i, hih, ds, ho, (origin_can hr1 hev hih ho).1 hc⟩
      · rintro ⟨i, hih, ds, ho, hcap⟩
        exact (origin_can hr1 hev hih ho).2 hcap
    cases hp with
    | cons hs1 ht =>
      rw [ht.nil_inv] at hch ⊢
      cases hs1 with
      | enq henq =>
        rcases Multi.enqueue_cases hi henq with ⟨_, hsame, _⟩ | ⟨l1, w, l2, g1, g2, g3, g4, g5⟩
        · exact absurd hsame hch
        · have hmem : ∀ x ∈ l1 ++ w :: l2, x ∈ t.pre.queue.ring := by rw [g1]; exact fun _ h => h
          refine ⟨l1, w, l2, g1, g2, (hcan w (hmem w (by simp))).1 g3, ?_, ?_⟩
          · intro x hx hdx
            have hc := (hcan x (hmem x (by simp [hx]))).2 hdx
            rw [Worker.Can, g4 x hx] at hc; cases hc
          · have hev' : t.outs.filter Spec.isEval =
                ([QOp.enq now r res].flatMap QOp.sends).filter Spec.isEval := by
              show t.post.outs.filter Spec.isEval = _
              rw [← evals_isEval t.post.outs, hout, evals_isEval]
            rcases g5 with ⟨k1, rfl, k2⟩ | ⟨k1, rfl, k2⟩
            · refine .inl ⟨k1, ?_, k2⟩
              rw [hev']
              simp [QOp.sends, QOp.gives, evals, Spec.isEval, sendMsg, keyWorkers, hfr]
            · refine .inr ⟨k1, ?_, r, rfl, hfr, ?_⟩
              · rw [hev']; simp [QOp.sends, QOp.gives, evals]
              · simp only [Multi.of, k2, Multi.getDq_put_self]
  | init hk' => exact absurd (hk.symm.trans hk') (by decide)
  | ok hk' => exact absurd (hk.symm.trans hk') (by decide)
  | failed hk' => exact absurd (hk.symm.trans hk') (by decide)
  | adopted hk' => exact absurd (hk.symm.trans hk') (by decide)
  | again hk' => exact absurd (hk.symm.trans hk') (by decide)
  | timer hk' => exact absurd (hk.symm.trans hk') (by decide)

/-- **C19, ring.** Multi-queue manager: apart from timer messages, the ring changes only when a worker
    registers, which puts it in front, and when a job is given to a worker outside the order of its
    queue, which moves it to the end. -/
theorem C19_ring_step {cfg : HConfig} {env : Env} {h1 h2 : List (Tr Multi)} {t : Tr Multi}
    {s : HState Multi} (hr : Run cfg env (h1 ++ t :: h2) s) (hk : t.msg.key ≠ "timer") :
    t.post.queue.ring = t.pre.queue.ring ∨
    (∃ w, t.post.queue.ring = w :: t.pre.queue.ring ∧ w ∉ t.pre.workers ∧ w ∈ t.post.workers ∧
      t.msg.key = "workers" ∧ t.msg.data.head? = some "init" ∧ t.msg.identity = w.identity) ∨
    ∃ l1 w l2, t.pre.queue.ring = l1 ++ w :: l2 ∧ t.post.queue.ring = l1 ++ l2 ++ [w] ∧
      ((t.msg.key = "clients" ∧ t.msg.data.head? = some "eval") ∨
       (t.msg.key = "workers" ∧ ∃ j text, t.msg.data = ["done", j, "INTERNAL_ERROR", text])) := by
  obtain ⟨hr1, hst, hr2⟩ := hr.prefix
  obtain ⟨ops, hp, hsh, hout⟩ := step_ops hr1.inv.1 hst
  have hi : Multi.Inv t.pre.queue := hr1.inv.1.qinv
  have hassign : ∀ (q : Multi) (w : Worker), (q.assignRequest w).2.ring = q.ring := by
    intro q w
    rw [Multi.assignRequest]; split <;> rfl
  cases hsh with
  | none => rw [hp.nil_inv]; exact .inl rfl
  | @init w cur o hk' hd hid hcur =>
    cases hp with
    | @cons _ q1 _ _ _ hs1 ht =>
      have e1 := ht.nil_inv
      cases hs1 with
      | add hwf hf ha =>
        have hq : q1 = (Multi.addWorker t.pre.queue w cur).2 := (congrArg Prod.snd (Except.ok.inj ha)).symm
        have hring : t.post.queue.ring = w :: t.pre.queue.ring := by rw [e1, hq]; rfl
        refine .inr (.inl ⟨w, hring, ?_, ?_, hk', hd, hid.symm⟩)
        · intro hm
          have := hr1.inv.1.mem_reg.1 hm
          exact hf (Multiset.mem_map.2 ⟨w, this, rfl⟩)
        · refine hr2.inv.1.mem_reg.2 ?_
          simp only [LawfulQM.reg, Multiset.mem_coe, hring]; simp
  | @ok w o j rest hk' hd hid =>
    cases hp with
    | @cons _ q1 _ _ _ hs1 ht =>
      rw [ht.nil_inv]
      cases hs1 with
      | finish hb ha =>
        have hq : q1 = (Multi.workerFinished t.pre.queue w).2 := (congrArg Prod.snd (Except.ok.inj ha)).symm
        rw [hq]; exact .inl (hassign _ _)
  | @failed w r0 o st text hk' hd hst' hid =>
    cases hp with
    | @cons _ q1 _ _ _ hs1 ht =>
      cases hs1 with
      | cancel hb hc =>
        have hq : q1 = { t.pre.queue with current := t.pre.queue.current.put w none } :=
          (congrArg Prod.snd hc).symm
        subst hq
        cases ht with
        | @cons _ q2 _ _ _ hs2 ht2 =>
          rw [ht2.nil_inv]
          cases hs2 with
          | assign hw _ ha =>
            have hq : q2 = (Multi.assignRequest { t.pre.queue with
                current := t.pre.queue.current.put w none } w).2 :=
              (congrArg Prod.snd (Except.ok.inj ha)).symm
            rw [hq]; exact .inl (hassign _ _)
  | @adopted w r text hk' hd hid hc =>
    cases hp with
    | @cons _ q1 _ _ _ hs1 ht =>
      rw [ht.nil_inv]
      cases hs1 with
      | cancel hb hc =>
        have hq : q1 = { t.pre.queue with current := t.pre.queue.current.put w none } :=
          (congrArg Prod.snd hc).symm
        rw [hq]; exact .inl rfl
  | @again w r text now res hk' hd hid hc =>
    cases hp with
    | @cons _ q1 _ _ _ hs1 ht =>
      have hi1 := hs1.inv hr1.inv.1.qinv
      cases hs1 with
      | cancel hb hc =>
        have hq : q1 = { t.pre.queue with current := t.pre.queue.current.put w none } :=
          (congrArg Prod.snd hc).symm
        subst hq
        cases ht with
        | @cons _ q2 _ _ _ hs2 ht2 =>
          rw [ht2.nil_inv]
          cases hs2 with
          | enq henq =>
            rcases Multi.enqueue_cases hi1 henq with ⟨_, rfl, _⟩ | ⟨l1, w, l2, g1, g2, _⟩
            · exact .inl rfl
            · exact .inr (.inr ⟨l1, w, l2, g1, g2, .inr ⟨hk', _, _, hd⟩⟩)
  | @eval r now res fs extra hk' hd hev hf hc =>
    cases hp with
    | cons hs1 ht =>
      rw [ht.nil_inv]
      cases hs1 with
      | enq henq =>
        rcases Multi.enqueue_cases hi henq with ⟨_, rfl, _⟩ | ⟨l1, w, l2, g1, g2, _⟩
        · exact .inl rfl
        · exact .inr (.inr ⟨l1, w, l2, g1, g2, .inl ⟨hk', by rw [hd]; rfl⟩⟩)
  | timer hk' => exact absurd hk' hk

/-! ## C44 -/

/-- **C44, multi-queue manager (partial).** Registering a worker together with a request returns no
    request, and the worker is then processing that request.  Missing: the single-queue manager, for
    which it is false (`C44_refuted_single`). -/
theorem C44_contract_multi_partial (srt : Sorter) {q : Multi} (hi : Multi.Inv q) {w : Worker}
    (hf : w.addr ∉ q.ring.map (·.addr)) (r : Req) :
    ∃ q', QueueManager.addWorker srt q w (some r) = .ok (none, q') ∧
      (QueueManager.currentRequest q' w).1 = some r := by
  refine ⟨_, rfl, ?_⟩
  show (q.current.emplace w (some r)).getD w none = some r
  simp [WMap.getD, WMap.find_emplace_self (Multi.Inv.freshCur hi hf)]

/-- **C44, multi-queue manager, as seen by the worker (partial).** No message is sent to a worker that
    registers with a job it is already processing. -/
theorem C44_silent_multi_partial {cfg : HConfig} {env : Env} {h1 h2 : List (Tr Multi)} {t : Tr Multi}
    {s : HState Multi} (hr : Run cfg env (h1 ++ t :: h2) s) {j : String}
    (ha : Spec.adopts j t = true) : ∀ o ∈ t.outs, o.key ≠ "workers" := by
  obtain ⟨hr1, hst, _⟩ := hr.prefix
  obtain ⟨ops, hp, hsh, hout⟩ := step_ops hr1.inv.1 hst
  have ha' := ha
  simp only [Spec.adopts, Bool.and_eq_true, beq_iff_eq, decide_eq_true_eq] at ha'
  obtain ⟨⟨⟨hk, hd⟩, _⟩, _⟩ := ha'
  have hnone : evals t.outs = [] := by
    show evals t.post.outs = []
    rw [hout]
    cases hsh with
    | none => rfl
    | @init w cur o hk' hd' hid hcur =>
      cases hp with
      | cons hs1 ht =>
        cases hs1 with
        | add hwf hf hadd =>
          have : o = none := (congrArg Prod.fst (Except.ok.inj hadd)).symm
          subst this
          rfl
    | ok hk' hd' => rw [hd'] at hd; simp at hd
    | failed hk' hd' => rw [hd'] at hd; simp at hd
    | adopted hk' hd' => rw [hd'] at hd; simp at hd
    | again hk' hd' => rw [hd'] at hd; simp at hd
    | eval hk' => exact absurd (hk.symm.trans hk') (by decide)
    | timer hk' => exact absurd (hk.symm.trans hk') (by decide)
  intro o ho hkey
  have hng : isGive o = false := by
    cases hg : isGive o with
    | false => rfl
    | true =>
      have : o ∈ evals t.outs := List.mem_filter.2 ⟨ho, hg⟩
      rw [hnone] at this; simp at this
  obtain ⟨evs, hi⟩ := step_info hr1.inv.1 hst
  have ho' : o ∈ t.post.outs := ho
  rw [hi.outs] at ho'
  obtain ⟨e, he, hm⟩ := List.mem_flatMap.1 ho'
  have hshape := hi.script.shape _ he
  have hsend : ∀ w r, o = sendMsg w r → e.gives = some (w, r) ∨ e = .resend w r → False := by
    rintro w r rfl h
    rcases h with h | h
    · obtain ⟨_, _, g3, _⟩ := hr1.gives hi he h
      obtain ⟨extra, hf⟩ := g3.frames
      simp [isGive, sendMsg, hf, keyWorkers] at hng
    · have hf := hi.steps.resend_frames (h ▸ he)
      simp [isGive, sendMsg, hf, keyWorkers] at hng
  cases e with
  | say m =>
    simp only [Ev.msgs, List.mem_singleton] at hm
    subst hm
    cases hshape with
    | client hk' => exact absurd (hk.symm.trans hk') (by decide)
    | monitor h => exact absurd (hkey.symm.trans h.1) (by decide)
    | worker _ _ _ hc => rw [hd] at hc; simp at hc
    | error _ hm => exact absurd (hkey.symm.trans hm) (by decide)
  | send w r => exact hsend w r (by simpa [Ev.msgs] using hm) (.inl rfl)
  | pull w r => exact hsend w r (by simpa [Ev.msgs] using hm) (.inl rfl)
  | resend w r => exact hsend w r (by simpa [Ev.msgs] using hm) (.inr rfl)
  | done w r =>
    simp only [Ev.msgs, List.mem_singleton] at hm
    subst hm
    exact absurd (show keyNotifier = "workers" from hkey) (by decide)
  | failed w r x =>
    simp only [Ev.msgs, List.mem_singleton] at hm
    subst hm
    exact absurd (show keyNotifier = "workers" from hkey) (by decide)
  | giveUp r x =>
    simp only [Ev.msgs, List.mem_singleton] at hm
    subst hm
    exact absurd (show keyNotifier = "workers" from hkey) (by decide)
  | _ => simp [Ev.msgs] at hm


/-- The single-queue manager returns the request the worker is already processing. -/
theorem C44_single_returns_current (srt : Sorter) (q : Single) (w : Worker) (r : Req) :
    (QueueManager.addWorker srt q w (some r)).map (·.1) = .ok (some r) := rfl

/-- **C44 is false for the single-queue manager.** -/
theorem C44_refuted_single : ¬ ∀ (srt : Sorter) (q : Single) (w : Worker) (r : Req),
    Single.Inv q → w.addr ∉ q.workers.map (·.addr) →
    ∃ q', QueueManager.addWorker srt q w (some r) = .ok (none, q') := by
  intro H
  obtain ⟨q', h⟩ := H insSorter (QueueManager.empty : Single) ⟨1, "w", "g", [], [], ""⟩
    (Req.incomplete 0 "J") (LawfulQM.inv_empty (Q := Single)) (by simp [QueueManager.empty])
  have := C44_single_returns_current insSorter (QueueManager.empty : Single) ⟨1, "w", "g", [], [], ""⟩
    (Req.incomplete 0 "J")
  rw [h] at this
  cases this

/-- The single-queue manager sends a message without frames to a worker that registers with a job. -/
theorem C44_observable_single : ∃ (h1 h2 : List (Tr Single)) (t : Tr Single) (s : HState Single),
    Run cfg0 env0 (h1 ++ t :: h2) s ∧ Spec.adopts "J" t = true ∧
      (⟨"workers", "w", []⟩ : Msg) ∈ t.outs := by
  obtain ⟨h1, t, h2, s, hr, _, _, _, hp⟩ := exists_split (Q := Single) (cfg := cfg0) (env := env0)
    [] (fromW "w" ["init", "group", "env=c", "", "current_job=J"]) []
    (fun t _ => Spec.adopts "J" t && t.outs.contains ⟨"workers", "w", []⟩) (by decide +kernel)
  simp only [Bool.and_eq_true, List.contains_iff_mem] at hp
  exact ⟨h1, h2, t, s, hr, hp⟩

/-! ## C17 is false -/

/-- Worker `w1` registers while processing `J0`, job `J1` waits, and `w1` reports an internal error. -/
def stallMsgs : List Msg :=
  [fromW "w1" ["init", "group", "env=c", "", "current_job=J0"],
   fromC "client" ["eval", "J1", "env=c", "", "x"],
   fromW "w1" ["done", "J0", "INTERNAL_ERROR", "disk full"],
   tick "100", fromW "w1" ["ping"], tick "1500"]

/-- **C17 is false for the single-queue manager.** -/
theorem C17_refuted_single : ¬ ∀ (h : List (Tr Single)) (s : HState Single), Run cfg0 env0 h s →
    ∀ e ∈ s.queue.jobs, ∀ fs, Requested h e.1 fs → ∀ w ∈ s.workers, DeclaredFor h w fs →
      ¬ Idle s w := by
  obtain ⟨h, s, hr, hp⟩ := exists_run (Q := Single) (cfg := cfg0) (env := env0) stallMsgs
    (fun _ s => s.queue.jobs.any (fun e => s.workers.any (fun w => isIdleBool s w &&
      match w.checkHeaders e.1.headers with | .ok true => true | _ => false))) (by decide +kernel)
  intro H
  simp only [List.any_eq_true, Bool.and_eq_true] at hp
  obtain ⟨e, he, w, hw, hid, hc⟩ := hp
  have hq : e.1 ∈ que s.queue := by
    simp only [LawfulQM.que, Multiset.mem_coe]
    exact List.mem_map.2 ⟨e, he, rfl⟩
  obtain ⟨fs, k1, k2, _⟩ := hr.waiting_origin hq
  refine H h s hr e he fs k1 w hw ((k2 w hw).1 ?_) ?_
  · revert hc
    show _ → w.checkHeaders e.1.headers = .ok true
    split
    · exact fun _ => by assumption
    · exact fun h => by cases h
  · simpa [Idle, isIdleBool] using hid

/-- **C17 is false for the multi-queue manager.** -/
theorem C17_refuted_multi : ¬ ∀ (h : List (Tr Multi)) (s : HState Multi), Run cfg0 env0 h s →
    ∀ w l, (w, l) ∈ s.queue.queues → l ≠ [] → ¬ Idle s w := by
  obtain ⟨h, s, hr, hp⟩ := exists_run (Q := Multi) (cfg := cfg0) (env := env0) stallMsgs
    (fun _ s => s.queue.queues.any (fun p => isIdleBool s p.1 && !p.2.isEmpty)) (by decide +kernel)
  intro H
  simp only [List.any_eq_true, Bool.and_eq_true] at hp
  obtain ⟨⟨w, l⟩, hm, hid, hl⟩ := hp
  refine H h s hr w l hm ?_ (by simpa [Idle, isIdleBool] using hid)
  rintro rfl
  simp at hl

/-! ## The hypotheses can be met -/

/-- C16, C17: waiting jobs and idle workers that cannot do them. -/
def waitingMsgs : List Msg :=
  [fromW "w1" ["init", "group", "env=c", "env=java", "threads=4"],
   fromW "w2" ["init", "group", "env=java"],
   fromC "client" ["eval", "J1", "env=c", "", "a"],
   fromC "client" ["eval", "J2", "env=c", "threads=2", "", "b"],
   fromC "client" ["eval", "J3", "env=c", "", "c"]]

example : ∃ h s, Run (Q := Single) cfg0 env0 h s ∧ (decide (s.queue.jobs.length = 2) &&
    s.workers.any (isIdleBool s)) = true :=
  exists_run waitingMsgs _ (by decide +kernel)

example : ∃ h s, Run (Q := Multi) cfg0 env0 h s ∧ (s.queue.queues.any (fun p => p.2.length == 2) &&
    s.workers.any (isIdleBool s)) = true :=
  exists_run waitingMsgs _ (by decide +kernel)

/-- C16: `w1` expires, the waiting jobs lose their last capable worker and are reported. -/
example : ∃ h1 t h2 s, Run (Q := Single) cfg0 env0 (h1 ++ t :: h2) s ∧ h1.map (·.msg) = waitingMsgs ++
      [fromW "w1" ["ping"], tick "1001", tick "1001", tick "1001", fromW "w2" ["ping"]] ∧
    t.msg = tick "1001" ∧ h2.map (·.msg) = [] ∧
    (t.pre.queue.jobs.length == 2 && t.post.queue.jobs.length == 0 &&
      t.outs.any (Spec.isFailed "J2") && t.outs.any (Spec.isFailed "J3")) = true :=
  exists_split _ _ _ _ (by decide +kernel)

example : ∃ h1 t h2 s, Run (Q := Multi) cfg0 env0 (h1 ++ t :: h2) s ∧ h1.map (·.msg) = waitingMsgs ++
      [fromW "w1" ["ping"], tick "1001", tick "1001", tick "1001", fromW "w2" ["ping"]] ∧
    t.msg = tick "1001" ∧ h2.map (·.msg) = [] ∧
    (t.pre.queue.queues.any (fun p => p.2.length == 2) && t.post.queue.queues.all (·.2.isEmpty) &&
      t.outs.any (Spec.isFailed "J2") && t.outs.any (Spec.isFailed "J3")) = true :=
  exists_split _ _ _ _ (by decide +kernel)

/-- C18: a new worker takes the second of two waiting jobs, as it cannot do the first one. -/
example : ∃ h1 t h2 s, Run (Q := Single) cfg0 env0 (h1 ++ t :: h2) s ∧ h1.map (·.msg) = waitingMsgs ∧
    t.msg = fromW "w3" ["init", "group", "env=c", "threads=1"] ∧
    h2.map (·.msg) = [fromW "w1" ["done", "J1", "OK"]] ∧
    (t.outs == [⟨"workers", "w3", ["eval", "J3", "c"]⟩] &&
      s.outs.contains ⟨"workers", "w1", ["eval", "J2", "b"]⟩ &&
      t.pre.queue.jobs.map (·.1.jobId) == ["J2", "J3"]) = true :=
  exists_split _ _ _ _ (by decide +kernel)

/-- C18: the other case, an internal error. -/
example : ∃ h1 t h2 s, Run (Q := Single) cfg0 env0 (h1 ++ t :: h2) s ∧ h1.map (·.msg) = waitingMsgs ∧
    t.msg = fromW "w1" ["done", "J1", "INTERNAL_ERROR", "e"] ∧ h2.map (·.msg) = [] ∧
    (t.outs.any (Spec.isEvalOf "J1") && t.post.queue.jobs.map (·.1.jobId) == ["J2", "J3"]) = true :=
  exists_split _ _ _ _ (by decide +kernel)

/-- C19: two jobs for `w1` wait and are sent to it in order, while `w1` stays registered. -/
example : ∃ h s, Run (Q := Multi) cfg0 env0 h s ∧
    (((emitted (h.drop 5)).filter Spec.isEval ==
      [⟨"workers", "w1", ["eval", "J2", "b"]⟩, ⟨"workers", "w1", ["eval", "J3", "c"]⟩]) &&
      (h.drop 5).all (fun t => t.pre.workers.any (fun w => w.identity == "w1"))) = true :=
  exists_run (waitingMsgs ++ [fromW "w1" ["done", "J1", "OK"],
    fromC "client" ["eval", "J4", "env=c", "", "c"], fromW "w1" ["done", "J2", "FAILED", "x"]])
    _ (by decide +kernel)

/-- C19: the capable worker in front of the ring is passed over if it cannot do the job, and the one
    used moves to the end. -/
example : ∃ h1 t h2 s, Run (Q := Multi) cfg0 env0 (h1 ++ t :: h2) s ∧
    h1.map (·.msg) = [fromW "w1" ["init", "group", "env=c"], fromW "w2" ["init", "group", "env=c"],
      fromW "w3" ["init", "group", "env=java"]] ∧
    t.msg = fromC "client" ["eval", "J1", "env=c", "", "a"] ∧ h2.map (·.msg) = [] ∧
    (Spec.accepts "J1" t && t.pre.queue.ring.map (·.identity) == ["w3", "w2", "w1"] &&
      t.post.queue.ring.map (·.identity) == ["w3", "w1", "w2"] &&
      t.outs.contains ⟨"workers", "w2", ["eval", "J1", "a"]⟩) = true :=
  exists_split _ _ _ _ (by decide +kernel)

/-- C44: adoption by the multi-queue manager. -/
example : ∃ h1 t h2 s, Run (Q := Multi) cfg0 env0 (h1 ++ t :: h2) s ∧ h1.map (·.msg) = [] ∧
    t.msg = fromW "w" ["init", "group", "env=c", "", "current_job=J"] ∧ h2.map (·.msg) = [] ∧
    Spec.adopts "J" t = true :=
  exists_split _ _ _ _ (by decide +kernel)

end Broker
