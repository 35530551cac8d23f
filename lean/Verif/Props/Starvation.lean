import Verif.Proof.Completion

/-!
# C64: no starvation of waiting jobs
-/

set_option linter.unusedSectionVars false

namespace Broker

open LawfulQM

variable {Q : Type} [QueueManager Q] [LawfulQM Q]

/-- **C64, multi-queue manager: the next job at once.**  When a worker reports its job as completed or
    failed and a job waits in its queue, the first one is sent to it while the report is handled. -/
theorem C64_next_multi {cfg : HConfig} {env : Env} {h1 h2 : List (Tr Multi)} {t : Tr Multi}
    {s : HState Multi} (hr : Run cfg env (h1 ++ t :: h2) s) {w : Worker} (hc : Spec.Completes w t)
    {r : Req} {l : List Req} (hq : t.pre.queue.of w = r :: l) :
    ⟨"workers", w.identity, r.frames⟩ ∈ t.outs ∧ t.post.queue.of w = l := by
  obtain ⟨hr1, hst, hr2⟩ := hr.prefix
  have hi : Multi.Inv t.pre.queue := hr1.inv.1.qinv
  have hreg : w ∈ t.pre.workers := List.mem_of_find?_eq_some hc.2.choose_spec.choose_spec.choose_spec.1.1
  have hrq : r ∈ que t.pre.queue := by
    simp only [LawfulQM.que, Multiset.mem_coe]
    obtain ⟨v, a, b, e1, e2, _⟩ := hi.splitQue (mem_ring hr1.inv.1 hreg)
    refine List.mem_flatMap.2 ⟨(w, v), by rw [e1]; simp, ?_⟩
    have : t.pre.queue.of w = v := e2
    rw [hq] at this
    rw [← this]; simp
  have hass : ∀ (q q' : Multi) o, q.queues = t.pre.queue.queues → q.assignRequest w = (o, q') →
      o = some r ∧ q'.of w = l := by
    intro q q' o h0 h
    have hq' : q.queues.getD w [] = r :: l := by rw [h0]; exact hq
    rw [Multi.assignRequest, hq'] at h
    cases h
    exact ⟨rfl, by simp only [Multi.of, Multi.getDq_put_self]⟩
  obtain ⟨o, g1, g2⟩ := completes_ops hr1 hst hc
  have key : o = some r ∧ t.post.queue.of w = l := by
    rcases g1 with g1 | ⟨r', g1⟩
    · cases g1 with
      | cons h1 ht =>
        rw [ht.nil_inv]
        cases h1 with
        | finish hb h =>
          change (.ok (Multi.workerFinished _ w) : Except Exn _) = _ at h
          rw [Except.ok.injEq] at h
          exact hass { t.pre.queue with current := t.pre.queue.current.put w none } _ _ rfl h
    · cases g1 with
      | cons h1 ht =>
        cases ht with
        | cons h2 ht =>
          rw [ht.nil_inv]
          cases h1 with
          | cancel hb h =>
            cases h2 with
            | assign hw hidle h' =>
              change (.ok (Multi.assignRequest _ w) : Except Exn _) = _ at h'
              rw [Except.ok.injEq] at h'
              refine hass _ _ _ ?_ h'
              exact congrArg (fun p => p.2.queues) h.symm
  obtain ⟨rfl, hl⟩ := key
  obtain ⟨k1, k2⟩ := isGive_sendMsg hr1 hrq w
  refine ⟨?_, hl⟩
  have : sendMsg w r ∈ evals t.outs := by
    rw [g2]; simp [evals, k1]
  rw [← k2]
  exact (List.mem_filter.1 this).1

/-- **C64, multi-queue manager: bounded waiting.**  A job that waits in the queue of a worker behind `n`
    others has been sent to this worker by the time the worker has reported `n + 1` jobs as completed
    or failed, provided the worker stays registered. -/
theorem C64_bounded_multi {cfg : HConfig} {env : Env} {h1 h2 : List (Tr Multi)} {s1 s : HState Multi}
    (hr1 : Run cfg env h1 s1) (hr : Run cfg env (h1 ++ h2) s) {w : Worker} (hw : w ∈ s.workers)
    (hreg : ∀ t ∈ h2, w ∈ t.pre.workers) {l1 l2 : List Req} {r : Req}
    (hq : s1.queue.of w = l1 ++ r :: l2) {reports : List (Tr Multi)} (hsub : reports.Sublist h2)
    (hrep : ∀ t ∈ reports, Spec.Completes w t) (hlen : l1.length < reports.length) :
    ⟨"workers", w.identity, r.frames⟩ ∈ emitted h2 := by
  have key : ∀ (h2 : List (Tr Multi)) (s : HState Multi) (reports : List (Tr Multi)),
      Run cfg env (h1 ++ h2) s → w ∈ s.workers → (∀ t ∈ h2, w ∈ t.pre.workers) →
      reports.Sublist h2 → (∀ t ∈ reports, Spec.Completes w t) →
      ⟨"workers", w.identity, r.frames⟩ ∈ emitted h2 ∨
        ∃ a b, s.queue.of w = a ++ r :: b ∧ a.length + reports.length ≤ l1.length := by
    intro h2
    induction h2 using List.reverseRecOn with
    | nil =>
      intro s reports hr _ _ hsub _
      rw [List.append_nil] at hr
      rw [hr.unique hr1]
      rw [List.sublist_nil.1 hsub]
      exact .inr ⟨l1, l2, hq, by simp⟩
    | append_singleton h2 t ih =>
      intro s reports hr hw hreg hsub hrep
      rw [← List.append_assoc] at hr
      obtain ⟨hr2, hstep, hr3⟩ := Run.prefix (h2 := []) hr
      have hst : s = t.post := hr.unique hr3
      subst hst
      have hwt := hreg t (by simp)
      have hem : emitted (h2 ++ [t]) = emitted h2 ++ t.outs := by simp [emitted]
      rw [hem, List.mem_append]
      obtain ⟨ra, rb, rfl, hsa, hsb⟩ := List.sublist_append_iff.1 hsub
      rcases ih _ ra hr2 hwt (fun x hx => hreg x (by simp [hx])) hsa (fun x hx => hrep x (by simp [hx]))
        with h | ⟨a, b, k1, k2⟩
      · exact .inl (.inl h)
      have hrb : rb = [] ∨ rb = [t] := by
        rcases List.sublist_cons_iff.1 hsb with h | ⟨r', rfl, h⟩
        · exact .inl (List.sublist_nil.1 h)
        · rw [List.sublist_nil.1 h]; exact .inr rfl
      rcases hrb with rfl | rfl
      · rcases C19_queue_step hr hwt hw with ⟨more, k⟩ | ⟨r', k, k', _⟩
        · exact .inr ⟨a, b ++ more, by rw [k, k1]; simp, by simpa using k2⟩
        · rw [k1] at k
          cases a with
          | nil =>
            simp only [List.nil_append, List.cons.injEq] at k
            left; right
            rw [k.1]
            have : (⟨"workers", w.identity, r'.frames⟩ : Msg) ∈ t.outs.filter Spec.isEval := by
              rw [k']; simp
            exact (List.mem_filter.1 this).1
          | cons x a =>
            simp only [List.cons_append, List.cons.injEq] at k
            exact .inr ⟨a, b, k.2.symm, by simp at k2 ⊢; omega⟩
      · have hc := hrep t (by simp)
        cases a with
        | nil => exact .inl (.inr (C64_next_multi hr hc k1).1)
        | cons x a =>
          exact .inr ⟨a, b, (C64_next_multi hr hc k1).2, by simp at k2 ⊢; omega⟩
  rcases key h2 s reports hr hw hreg hsub hrep with h | ⟨a, b, _, h⟩
  · exact h
  · omega

/-- **C64, single-queue manager: bounded waiting.**  While a job waits, the number of completions and
    failures reported by workers that declared all it asks for stays below the number of jobs that
    waited, at the beginning, no shorter than this one (itself included): every such report takes one
    of them away.  The clock is assumed to have advanced since the job arrived. -/
theorem C64_bounded_single {cfg : HConfig} {env : Env} {h1 h2 : List (Tr Single)}
    {s1 s : HState Single} (hr1 : Run cfg env h1 s1) (hr : Run cfg env (h1 ++ h2) s) {e : Entry}
    (hq : e ∈ s.queue.jobs) (hwait : ∀ t ∈ h2, e ∈ t.pre.queue.jobs)
    (hclock : ∀ k, s1.clockReads ≤ k → e.2 < env.clock k) :
    ∃ fs, Requested (h1 ++ h2) e.1 fs ∧ ∀ reports : List (Tr Single), reports.Sublist h2 →
      (∀ t ∈ reports, ∃ w, DeclaredFor (h1 ++ h2) w fs ∧ Spec.Completes w t) →
      reports.length < s1.queue.jobs.countP (fun e' => e'.2 ≤ e.2) := by
  have hqs : e.1 ∈ que s.queue := by
    simp only [LawfulQM.que, Multiset.mem_coe]
    exact List.mem_map.2 ⟨e, hq, rfl⟩
  obtain ⟨fs, k1, _, x, k2, k3⟩ := hr.waiting_origin hqs
  refine ⟨fs, k1, fun reports hsub hrep => ?_⟩
  have hrep' : ∀ t ∈ reports, ∃ w, w.Can e.1.headers ∧ Spec.Completes w t := by
    intro t ht
    obtain ⟨w, ⟨i, hi, ds, ho, hd⟩, hc⟩ := hrep t ht
    exact ⟨w, by rw [k3]; exact (origin_can hr k2 hi ho).2 hd, hc⟩
  have key : ∀ (h2 : List (Tr Single)) (s : HState Single) (reports : List (Tr Single)),
      Run cfg env (h1 ++ h2) s → (∀ t ∈ h2, e ∈ t.pre.queue.jobs) →
      reports.Sublist h2 → (∀ t ∈ reports, ∃ w, w.Can e.1.headers ∧ Spec.Completes w t) →
      s1.clockReads ≤ s.clockReads ∧
      Single.older e.2 s.queue + reports.length ≤ Single.older e.2 s1.queue := by
    intro h2
    induction h2 using List.reverseRecOn with
    | nil =>
      intro s reports hr _ hsub _
      rw [List.append_nil] at hr
      rw [hr.unique hr1]
      rw [List.sublist_nil.1 hsub]
      exact ⟨Nat.le_refl _, by simp⟩
    | append_singleton h2 t ih =>
      intro s reports hr hwait hsub hrep
      rw [← List.append_assoc] at hr
      obtain ⟨hr2, hstep, hr3⟩ := Run.prefix (h2 := []) hr
      have hst : s = t.post := hr.unique hr3
      subst hst
      obtain ⟨ra, rb, rfl, hsa, hsb⟩ := List.sublist_append_iff.1 hsub
      obtain ⟨g1, g2⟩ := ih _ ra hr2 (fun x hx => hwait x (by simp [hx])) hsa
        (fun x hx => hrep x (by simp [hx]))
      obtain ⟨ops, hd, _⟩ := step_drv hr2.inv.1 hstep
      have hm : t.pre.clockReads ≤ t.post.clockReads := hd.mono_clock
      refine ⟨by omega, ?_⟩
      have hrb : rb = [] ∨ rb = [t] := by
        rcases List.sublist_cons_iff.1 hsb with h | ⟨r', rfl, h⟩
        · exact .inl (List.sublist_nil.1 h)
        · rw [List.sublist_nil.1 h]; exact .inr rfl
      rcases hrb with rfl | rfl
      · have := Single.older_path (T := e.2) hd.path hr2.inv.1.qinv (fun now r res h => by
          obtain ⟨k, k1, _, rfl⟩ := hd.clock now r res h
          have k1 : t.pre.clockReads ≤ k := k1
          exact hclock k (by omega))
        have this : Single.older e.2 t.post.queue ≤ Single.older e.2 t.pre.queue := this
        simp only [List.append_nil]
        omega
      · obtain ⟨w, hw, hc⟩ := hrep t (by simp)
        have := completes_older hr2 hstep hc (hwait t (by simp)) hw
        simp only [List.length_append, List.length_singleton]
        omega
  have h3 := (key h2 s reports hr hwait hsub hrep').2
  have h4 : 0 < Single.older e.2 s.queue := List.countP_pos_iff.2 ⟨e, hq, by simp⟩
  unfold Single.older at h3 h4
  omega

/-! ## The hypotheses can be met -/

/-- `J1` is being processed by the only worker able to, `J2`, `J3` and `J4` wait. -/
def queuedMsgs : List Msg :=
  [fromW "w1" ["init", "group", "env=c"], fromW "w2" ["init", "group", "env=java"],
   fromC "client" ["eval", "J1", "env=c", "", "a"], fromC "client" ["eval", "J2", "env=c", "", "b"],
   fromC "client" ["eval", "J3", "env=c", "", "c"], fromC "client" ["eval", "J4", "env=c", "", "d"]]

/-- Whether the worker of the message reports the end of the job it processes. -/
def completesBool (t : Tr Q) : Bool :=
  t.msg.key == "workers" && t.pre.workers.any (fun w => w.identity == t.msg.identity &&
    (QueueManager.currentRequest t.pre.queue w).1.any (fun r =>
      t.msg.data == ["done", r.jobId, "OK"] || t.msg.data == ["done", r.jobId, "FAILED", "x"]))

/-- Single-queue manager: two jobs end (and a fifth one arrives) while `J4` waits. -/
example : ∃ h1 t h2 s, Run (Q := Single) cfg0 env0 (h1 ++ t :: h2) s ∧ h1.map (·.msg) = queuedMsgs ∧
    t.msg = fromW "w1" ["done", "J1", "OK"] ∧ h2.map (·.msg) =
      [fromC "client" ["eval", "J5", "env=c", "", "e"], fromW "w1" ["done", "J2", "FAILED", "x"]] ∧
    (completesBool t && t.pre.queue.jobs.map (·.1.jobId) == ["J2", "J3", "J4"] &&
      t.pre.queue.jobs.all (fun e => decide (e.2 < t.pre.clockReads)) &&
      s.queue.jobs.map (·.1.jobId) == ["J4", "J5"] && s.workers.length == 2) = true :=
  exists_split _ _ _ _ (by decide +kernel)

/-- Multi-queue manager: after three jobs have ended, `J4`, which waited behind two, has been sent. -/
example : ∃ h1 t h2 s, Run (Q := Multi) cfg0 env0 (h1 ++ t :: h2) s ∧ h1.map (·.msg) = queuedMsgs ∧
    t.msg = fromW "w1" ["done", "J1", "OK"] ∧ h2.map (·.msg) =
      [fromC "client" ["eval", "J5", "env=c", "", "e"], fromW "w1" ["done", "J2", "FAILED", "x"],
       fromW "w1" ["done", "J3", "OK"]] ∧
    (completesBool t && t.pre.queue.queues.any (fun p => p.2.map (·.jobId) == ["J2", "J3", "J4"]) &&
      s.outs.contains ⟨"workers", "w1", ["eval", "J4", "d"]⟩ && s.workers.length == 2) = true :=
  exists_split _ _ _ _ (by decide +kernel)

end Broker
