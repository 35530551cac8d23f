import Verif.Props.Queues
import Verif.Props.Workers

/-!
# C70: where a job goes after an internal error
-/

set_option linter.unusedSectionVars false

namespace Broker

open LawfulQM

variable {Q : Type} [QueueManager Q] [LawfulQM Q]

/-- The operations on the queues when a job is tried again after an internal error. -/
theorem retry_ops {cfg : HConfig} {env : Env} {h : List (Tr Q)} {s : HState Q} {m : Msg}
    (hr : Run cfg env h s) (hk : m.key = "workers") {w : Worker} {r : Req} {text : String}
    (hd : m.data = ["done", r.jobId, "INTERNAL_ERROR", text])
    (hp : Spec.Processing m.identity w r s) (hc : r.complete = true)
    (hlt : s.fc r.rid + 1 < cfg.maxFailures) :
    ∃ s' q1 now res, step cfg env m s = .ok () s' ∧
      QueueManager.workerCancelled s.queue w = (some r, q1) ∧
      QueueManager.enqueueRequest q1 now r = .ok (res, s'.queue) ∧
      s'.outs = (res.assignedTo.map (fun v => (⟨"workers", v.identity, r.frames⟩ : Msg))).toList := by
  obtain ⟨s', evs, hs, hi, hf, hds⟩ := done_report (cfg := cfg) (env := env) hr.inv.1 hk hd hp
  obtain ⟨hw, hb⟩ := (processing_iff hr.inv.1).1 hp
  have hfc : (({ s with outs := [] } : HState Q).heard cfg m.identity).fc = s.fc := by
    rw [heard_frame]
  have hinc : szInc (s.fc r.rid) = s.fc r.rid + 1 := by
    have := hr.inv.2.aliveB (w, r) hb hc
    exact (szInc_le_max cfg.maxFailures_lt this).1
  have huniq : ∀ r', (w, r') ∈ busy s.queue → r' = r := by
    intro r' hr'
    have h1 := (LawfulQM.current hr.inv.1.qinv (busy_reg hr.inv.1.qinv _ hb)).2
    have h2 := ((h1 r').2 hr').symm.trans ((h1 r).2 hb)
    simpa using h2
  obtain ⟨ops, hpath, hsh, hev⟩ := step_ops hr.inv.1 hs
  have hheld := hi.steps.held_count (fun _ => True)
  -- the events of the step
  have hcases : (∃ x, evs = [.cancel w r, .send x r]) ∨ evs = [.cancel w r, .park r] := by
    cases hds with
    | ok hst => simp at hst
    | failed hst => simp at hst
    | ignored hs' hst => simp at hst
    | adopted hst hrest hc' => rw [hc] at hc'; cases hc'
    | exhausted hst hrest hc' hfc' => rw [hfc, hinc] at hfc'; omega
    | resent => exact .inl ⟨_, rfl⟩
    | parked => exact .inr rfl
  have hcard : (ls s' 0).held.countP (fun _ => True) = (ls s 0).held.countP (fun _ => True) := by
    rcases hcases with ⟨x, rfl⟩ | rfl <;>
      simpa [Ev.leaves, Ev.enters] using hheld
  have hout : s'.outs = msgsOf evs := hi.outs
  have hsender : ∀ w', regFind m.identity s.workers = some w' → w' = w := by
    intro w' h'; rw [hw] at h'; exact (Option.some.inj h').symm
  have hpq : evs = [.cancel w r, .park r] → (que s'.queue).card = (que s.queue).card + 1 := by
    rintro rfl
    have h0 : (ls s' 0).que.card = (ls s 0).que.card + 1 := by
      have hst := hi.steps
      generalize ls s 0 = L at hst
      generalize ls s' 0 = L' at hst
      cases hst with
      | cons a1 b1 =>
        cases b1 with
        | cons a2 b2 =>
          cases b2
          cases a1
          cases a2
          simp
    exact h0
  obtain ⟨c, hch, fs, ho, hfr, _⟩ := hr.held_origin (LS.mem_held.2 (.inl ⟨w, hb⟩)) hc
  have hgive : ∀ x : Worker, evals [sendMsg x r] = [sendMsg x r] := by
    intro x; simp [evals, isGive, sendMsg, keyWorkers, hfr]
  cases hsh with
  | none =>
    exfalso
    have hq := hpath.nil_inv
    rcases hcases with ⟨x, rfl⟩ | he
    · rw [hout] at hev
      have : msgsOf [.cancel w r, .send x r] = [sendMsg x r] := rfl
      rw [this, hgive] at hev
      simp [evals] at hev
    · have := hpq he
      rw [hq] at this
      omega
  | init hk' hd' => rw [hd] at hd'; simp at hd'
  | ok hk' hd' => rw [hd] at hd'; simp at hd'
  | eval hk' => exact absurd (hk.symm.trans hk') (by decide)
  | timer hk' => exact absurd (hk.symm.trans hk') (by decide)
  | adopted hk' hd' hi' hc' =>
    exfalso
    cases hpath with
    | cons h1 ht =>
      cases h1 with
      | cancel hb' _ =>
        have := hsender _ hi'
        subst this
        have := huniq _ hb'
        subst this
        rw [hc] at hc'; cases hc'
  | failed hk' hd' hst' hi' =>
    exfalso
    cases hpath with
    | cons h1 ht =>
      cases ht with
      | cons h2 ht2 =>
        have hi1 := h1.inv hr.inv.1.qinv
        cases h1 with
        | cancel hb' hcan =>
          obtain ⟨q2, e1, _, e2, e3, e4⟩ := LawfulQM.cancelled hr.inv.1.qinv hb'
          rw [hcan] at e1
          cases e1
          cases h2 with
          | assign hwr hidle ha =>
            obtain ⟨o', q3, f1, _, _, f2⟩ := LawfulQM.assign env.srt hi1 hwr hidle
            rw [ha] at f1
            cases f1
            rw [← ht2.nil_inv] at f2
            simp only [Multiset.countP_True, LS.held, ls] at hcard
            rw [e3] at hcard
            rcases f2 with ⟨_, g1, g2⟩ | ⟨r3, _, _, g1, g2⟩
            · rw [g1, g2, e4] at hcard
              simp at hcard
            · rw [← e4, g1, g2] at hcard
              simp at hcard
  | @again w' r' text' now res hk' hd' hi' hc' =>
    cases hpath with
    | cons h1 ht =>
      cases ht with
      | cons h2 ht2 =>
        cases h1 with
        | cancel hb' hcan =>
          have e1 := (hsender _ hi').symm
          subst e1
          have e2 := (huniq _ hb').symm
          subst e2
          cases h2 with
          | enq henq =>
            rw [← ht2.nil_inv] at henq
            refine ⟨s', _, _, _, hs, hcan, henq, ?_⟩
            have hsend : evals ([QOp.cancel w r, QOp.enq now r res].flatMap QOp.sends)
                = (res.assignedTo.map (fun v => sendMsg v r)).toList := by
              cases hra : res.assignedTo with
              | none => simp [QOp.sends, QOp.gives, hra, evals]
              | some v =>
                have := hgive v
                simpa [QOp.sends, QOp.gives, hra] using this
            rw [hsend] at hev
            change s'.outs = (res.assignedTo.map (fun v => sendMsg v r)).toList
            rw [← hev]
            rcases hcases with ⟨x, rfl⟩ | rfl
            · rw [hout]; exact (hgive x).symm
            · rw [hout]; rfl

/-- What a held job asks for, and which registered workers declared it. -/
theorem held_declared {cfg : HConfig} {env : Env} {h : List (Tr Q)} {s : HState Q}
    (hr : Run cfg env h s) {r : Req} (hh : r ∈ (ls s 0).held) (hc : r.complete = true) :
    ∃ fs, Requested h r fs ∧ ∀ v ∈ s.workers, v.Can r.headers ↔ DeclaredFor h v fs := by
  obtain ⟨c, hch, fs, ho, hfr, x, hx, hrh⟩ := hr.held_origin hh hc
  refine ⟨fs, ⟨⟨c, hch, ho⟩, hfr⟩, fun v hv => ?_⟩
  rw [hrh]
  constructor
  · intro hcan
    obtain ⟨i, hih, ds, ho⟩ := hr.worker_origin hv
    exact ⟨i, hih, ds, ho, (origin_can hr hx hih ho).1 hcan⟩
  · rintro ⟨i, hih, ds, ho, hcap⟩
    exact (origin_can hr hx hih ho).2 hcap

/-- **C70, multi-queue manager.**  A worker reports an internal error about the job it is processing,
    and the job may be tried again.  The job goes to the first worker of the ring that declared all it
    asks for, and this worker moves to the end of the ring.  If it is idle, or the one that reported,
    it is sent the job at once and nothing else is sent to anybody.  Otherwise the job joins the end
    of its queue, and nothing is sent. -/
theorem C70_retry_multi {cfg : HConfig} {env : Env} {h : List (Tr Multi)} {s : HState Multi} {m : Msg}
    (hr : Run cfg env h s) (hk : m.key = "workers") {w : Worker} {r : Req} {text : String}
    (hd : m.data = ["done", r.jobId, "INTERNAL_ERROR", text])
    (hp : Spec.Processing m.identity w r s) (hc : r.complete = true)
    (hlt : s.fc r.rid + 1 < cfg.maxFailures) :
    ∃ s' fs l1 v l2, step cfg env m s = .ok () s' ∧ Requested h r fs ∧
      s.queue.ring = l1 ++ v :: l2 ∧ s'.queue.ring = l1 ++ l2 ++ [v] ∧
      DeclaredFor h v fs ∧ (∀ x ∈ l1, ¬ DeclaredFor h x fs) ∧
      (((v = w ∨ Idle s v) ∧ s'.outs = [⟨"workers", v.identity, r.frames⟩] ∧
          s'.queue.queues = s.queue.queues ∧
          (QueueManager.currentRequest s'.queue v).1 = some r) ∨
       (v ≠ w ∧ ¬ Idle s v ∧ s'.outs = [] ∧ s'.queue.of v = s.queue.of v ++ [r] ∧ Idle s' w)) := by
  obtain ⟨s', q1, now, res, hs, hcan, henq, hout⟩ :=
    retry_ops (env := env) hr hk hd hp hc hlt
  obtain ⟨hw, hb⟩ := (processing_iff hr.inv.1).1 hp
  obtain ⟨fs, hreq, hdecl⟩ := held_declared hr (LS.mem_held.2 (.inl ⟨w, hb⟩)) hc
  have hi : Multi.Inv s.queue := hr.inv.1.qinv
  have hq : q1 = { s.queue with current := s.queue.current.put w none } :=
    (congrArg Prod.snd hcan).symm
  have hi1 : Multi.Inv q1 := by
    obtain ⟨q2, e1, e2, _⟩ := LawfulQM.cancelled hr.inv.1.qinv hb
    rw [hcan] at e1; cases e1; exact e2
  have hwork : ∀ x ∈ s.queue.ring, x ∈ s.workers := fun x hx =>
    hr.inv.1.mem_reg.2 (by simpa [LawfulQM.reg] using hx)
  have hwreg : w ∈ s.queue.ring := by simpa [LawfulQM.reg] using busy_reg hr.inv.1.qinv _ hb
  have hring : q1.ring = s.queue.ring := by rw [hq]
  have hh' : HInv s' := (hr.snoc hs).inv.1
  have hne : ∀ x ∈ s.queue.ring, x ≠ w → w.addr ≠ x.addr := fun x hx hxw he =>
    hxw (List.inj_on_of_nodup_map hi.addr_nodup hx hwreg he.symm)
  obtain ⟨_, _, hbq⟩ := LawfulQM.enqueue now hi1 henq
  rcases Multi.enqueue_cases hi1 henq with ⟨_, _, hno⟩ | ⟨l1, v, l2, g1, g2, g3, g4, g5⟩
  · have h1 := hno w (by rw [hring]; exact hwreg)
    have h2 : w.Can r.headers := hr.inv.1.busyCan _ hb
    rw [Worker.Can, h1] at h2
    cases h2
  · rw [hring] at g1
    have hmem : ∀ x ∈ l1 ++ v :: l2, x ∈ s.workers := fun x hx => hwork x (by rw [g1]; exact hx)
    refine ⟨s', fs, l1, v, l2, hs, hreq, g1, g2, (hdecl v (hmem v (by simp))).1 g3, ?_, ?_⟩
    · intro x hx hdx
      have hcx := (hdecl x (hmem x (by simp [hx]))).2 hdx
      rw [Worker.Can, g4 x hx] at hcx; cases hcx
    · have hvr : v ∈ s.queue.ring := by rw [g1]; simp
      have hqq : q1.queues = s.queue.queues := by rw [hq]
      have hcv : v ≠ w → q1.current.getD v none = s.queue.current.getD v none := fun hvw => by
        rw [hq]; exact Single.getD_put_ne (hne v hvr hvw).symm
      rcases g5 with ⟨k1, rfl, k2⟩ | ⟨k1, rfl, k2⟩
      · refine .inl ⟨?_, hout, by rw [k2, hqq], ?_⟩
        · by_cases hvw : v = w
          · exact .inl hvw
          · right; rw [hcv hvw] at k1; exact k1
        · rcases hbq with ⟨w', e, _, _, _, e2, _⟩ | ⟨e, _⟩ | ⟨e, _⟩
          · cases e
            exact current_of_busy hh' (by rw [e2]; simp)
          · cases e
          · cases e
      · have hvw : v ≠ w := by
          rintro rfl
          rw [hq] at k1
          exact k1 Single.getD_put_self
        refine .inr ⟨hvw, ?_, hout, ?_, ?_⟩
        · rw [hcv hvw] at k1; exact k1
        · rw [Multi.of, k2, Multi.getDq_put_self, hqq]
        · rcases hbq with ⟨w', e, _⟩ | ⟨_, _, e2, _⟩ | ⟨e, _⟩
          · cases e
          · have hw' : w ∈ reg s'.queue := by
              simp only [LawfulQM.reg, Multiset.mem_coe, g2]
              rw [g1] at hwreg
              simp only [List.mem_append, List.mem_cons, List.not_mem_nil, or_false] at hwreg ⊢
              tauto
            have hcur := (LawfulQM.current hh'.qinv hw').2
            unfold Idle
            cases hx : (QueueManager.currentRequest s'.queue w).1 with
            | none => rfl
            | some x =>
              exfalso
              have := (hcur x).1 hx
              rw [e2] at this
              obtain ⟨q2, e1, _, _, e3, _⟩ := LawfulQM.cancelled hr.inv.1.qinv hb
              rw [hcan] at e1
              cases e1
              have hnd := busy_nodup hr.inv.1.qinv
              rw [e3, Multiset.map_cons, Multiset.nodup_cons] at hnd
              exact hnd.1 (Multiset.mem_map.2 ⟨(w, x), this, rfl⟩)
          · cases e

/-- **C70, single-queue manager.**  A worker reports an internal error about the job it is processing,
    and the job may be tried again.  It is sent at once to a worker that declared all it asks for and
    is idle or the one that reported.  Nothing else is sent to anybody, and the queue stays as it
    is. -/
theorem C70_retry_single {cfg : HConfig} {env : Env} {h : List (Tr Single)} {s : HState Single}
    {m : Msg} (hr : Run cfg env h s) (hk : m.key = "workers") {w : Worker} {r : Req} {text : String}
    (hd : m.data = ["done", r.jobId, "INTERNAL_ERROR", text])
    (hp : Spec.Processing m.identity w r s) (hc : r.complete = true)
    (hlt : s.fc r.rid + 1 < cfg.maxFailures) :
    ∃ s' fs v, step cfg env m s = .ok () s' ∧ Requested h r fs ∧ v ∈ s.workers ∧
      (v = w ∨ Idle s v) ∧ DeclaredFor h v fs ∧ s'.outs = [⟨"workers", v.identity, r.frames⟩] ∧
      s'.queue.jobs = s.queue.jobs ∧ (QueueManager.currentRequest s'.queue v).1 = some r := by
  obtain ⟨s', q1, now, res, hs, hcan, henq, hout⟩ :=
    retry_ops (env := env) hr hk hd hp hc hlt
  obtain ⟨hw, hb⟩ := (processing_iff hr.inv.1).1 hp
  obtain ⟨fs, hreq, hdecl⟩ := held_declared hr (LS.mem_held.2 (.inl ⟨w, hb⟩)) hc
  have hi : Single.Inv s.queue := hr.inv.1.qinv
  have hq : q1 = { s.queue with current := s.queue.current.put w none } :=
    (congrArg Prod.snd hcan).symm
  have hi1 : Single.Inv q1 := by
    obtain ⟨q2, e1, e2, _⟩ := LawfulQM.cancelled hr.inv.1.qinv hb
    rw [hcan] at e1; cases e1; exact e2
  have hwreg : w ∈ s.queue.workers := by simpa [LawfulQM.reg] using busy_reg hr.inv.1.qinv _ hb
  have hh' : HInv s' := (hr.snoc hs).inv.1
  obtain ⟨_, _, hbq⟩ := LawfulQM.enqueue now hi1 henq
  have hsel : ∃ v, res = ⟨some v, true⟩ ∧ s'.queue.jobs = q1.jobs := by
    change Single.enqueueRequest q1 now r = _ at henq
    simp only [Single.enqueueRequest, Except.bind_eq_ok] at henq
    obtain ⟨o, ho, henq⟩ := henq
    cases o with
    | some v => simp at henq; exact ⟨v, henq.1.symm, by rw [← henq.2]⟩
    | none =>
      exfalso
      rcases Single.select_ok ho with ⟨v, e, _⟩ | ⟨_, hall⟩
      · cases e
      · have h1 : (w, none) ∈ q1.current := by
          obtain ⟨v, l, r', _, _, h3, _⟩ := hi.splitCur hwreg
          rw [hq]; simp only [h3]; simp
        have h2 := hall w h1
        have h3 : w.Can r.headers := hr.inv.1.busyCan _ hb
        rw [Worker.Can, h2] at h3
        cases h3
  obtain ⟨v, rfl, hjobs⟩ := hsel
  rcases hbq with ⟨w', e, hvr, hidle, hvcan, e2, _⟩ | ⟨e, _⟩ | ⟨e, _⟩
  · cases e
    have hvr' : v ∈ reg s.queue := by rw [hq] at hvr; exact hvr
    have hvw : v ∈ s.workers := hr.inv.1.mem_reg.2 hvr'
    refine ⟨s', fs, v, hs, hreq, hvw, ?_, (hdecl v hvw).1 hvcan, hout, by rw [hjobs, hq],
      current_of_busy hh' (by rw [e2]; simp)⟩
    by_cases hvw' : v = w
    · exact .inl hvw'
    · right
      unfold Idle
      cases hx : (QueueManager.currentRequest s.queue v).1 with
      | none => rfl
      | some x =>
        exfalso
        have hbx := ((LawfulQM.current hr.inv.1.qinv hvr').2 x).1 hx
        obtain ⟨q2, e1, _, _, e3, _⟩ := LawfulQM.cancelled hr.inv.1.qinv hb
        rw [hcan] at e1
        cases e1
        rw [e3] at hbx
        rcases Multiset.mem_cons.1 hbx with hbx | hbx
        · exact hvw' (congrArg Prod.fst hbx)
        · exact hidle x hbx
  · cases e
  · cases e

/-! ## Concrete cases -/

/-- Two workers and as many jobs as given. -/
def retryMsgs (jobs : List String) : List Msg :=
  [fromW "w1" ["init", "group", "env=c"], fromW "w2" ["init", "group", "env=c"]] ++
  jobs.map (fun j => fromC "client" ["eval", j, "env=c", "", "x"])

/-- The worker processes `J1`, which never failed, and its report leads to these messages. -/
def retryCheck {Q : Type} [QueueManager Q] (worker : String) (out : List Msg) (t : Tr Q) : Bool :=
  (t.pre.workers.find? (fun w => w.identity == worker)).any (fun w =>
    (QueueManager.currentRequest t.pre.queue w).1.any (fun r =>
      r.jobId == "J1" && r.complete && t.pre.fc r.rid == 0)) && t.outs == out

/-- Multi-queue manager: the other worker is idle and gets the job. -/
example : ∃ h1 t h2 s, Run (Q := Multi) cfg0 env0 (h1 ++ t :: h2) s ∧
    h1.map (·.msg) = retryMsgs ["J1"] ∧ t.msg = fromW "w2" ["done", "J1", "INTERNAL_ERROR", "disk"] ∧
    h2.map (·.msg) = [] ∧
    retryCheck "w2" [⟨"workers", "w1", ["eval", "J1", "x"]⟩] t = true :=
  exists_split (retryMsgs ["J1"]) (fromW "w2" ["done", "J1", "INTERNAL_ERROR", "disk"]) []
    (fun t _ => retryCheck "w2" [⟨"workers", "w1", ["eval", "J1", "x"]⟩] t) (by decide +kernel)

/-- Multi-queue manager: the worker that reported gets the job again. -/
example : ∃ h1 t h2 s, Run (Q := Multi) cfg0 env0 (h1 ++ t :: h2) s ∧
    h1.map (·.msg) = retryMsgs ["J1", "J2"] ∧
    t.msg = fromW "w2" ["done", "J1", "INTERNAL_ERROR", "disk"] ∧ h2.map (·.msg) = [] ∧
    retryCheck "w2" [⟨"workers", "w2", ["eval", "J1", "x"]⟩] t = true :=
  exists_split (retryMsgs ["J1", "J2"]) (fromW "w2" ["done", "J1", "INTERNAL_ERROR", "disk"]) []
    (fun t _ => retryCheck "w2" [⟨"workers", "w2", ["eval", "J1", "x"]⟩] t) (by decide +kernel)

/-- Multi-queue manager: the other worker is busy, so the job waits. -/
example : ∃ h1 t h2 s, Run (Q := Multi) cfg0 env0 (h1 ++ t :: h2) s ∧
    h1.map (·.msg) = retryMsgs ["J1", "J2", "J3"] ∧
    t.msg = fromW "w2" ["done", "J1", "INTERNAL_ERROR", "disk"] ∧ h2.map (·.msg) = [] ∧
    retryCheck "w2" [] t = true :=
  exists_split (retryMsgs ["J1", "J2", "J3"]) (fromW "w2" ["done", "J1", "INTERNAL_ERROR", "disk"]) []
    (fun t _ => retryCheck "w2" [] t) (by decide +kernel)

/-- Single-queue manager: the worker that reported gets the job again although the queue is not
    empty. -/
example : ∃ h1 t h2 s, Run (Q := Single) cfg0 env0 (h1 ++ t :: h2) s ∧
    h1.map (·.msg) = retryMsgs ["J1", "J2", "J3"] ∧
    t.msg = fromW "w1" ["done", "J1", "INTERNAL_ERROR", "disk"] ∧ h2.map (·.msg) = [] ∧
    (retryCheck "w1" [⟨"workers", "w1", ["eval", "J1", "x"]⟩] t &&
      t.pre.queue.jobs.length == 1) = true :=
  exists_split (Q := Single) (retryMsgs ["J1", "J2", "J3"])
    (fromW "w1" ["done", "J1", "INTERNAL_ERROR", "disk"]) []
    (fun t _ => retryCheck "w1" [⟨"workers", "w1", ["eval", "J1", "x"]⟩] t &&
      t.pre.queue.jobs.length == 1) (by decide +kernel)

end Broker
