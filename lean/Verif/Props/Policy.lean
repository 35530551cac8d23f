import Verif.Proof.PolicyLaws
import Verif.Proof.QueueSim
import Verif.Spec.Calls
import Verif.Props.Drain
import Verif.Props.Accounting
import Verif.Props.Dispatch

/-!
# C89: the single-queue manager with any comparator and any selector
-/

namespace Broker

open LawfulQM

/-! ## The default arguments -/

instance : Policy.default.Lawful where
  perm srt _ l := srt.perm l
  sorted srt _ l := (srt.sorted l).imp (by
    intro a b h
    simp only [Policy.default, decide_eq_false_iff_not]
    omega)
  selects h := by
    rcases Single.select_ok h with ⟨w, hw, h1, h2⟩ | ⟨h1, _⟩
    · cases hw; exact ⟨h1, h2⟩
    · cases h1
  throws h := by
    obtain ⟨w, h1, h2⟩ := Single.select_error h
    exact ⟨_, h1, h2⟩

instance : Policy.default.Eager where
  none h := by
    rcases Single.select_ok h with ⟨w, hw, _⟩ | ⟨_, h1⟩
    · cases hw
    · exact h1

theorem SameRes.refl {α : Type} (x : Except Exn α) : SameRes (fun a b => b = a) x x := by
  cases x with
  | error e => exact .error e
  | ok a => exact .ok rfl

theorem SameRes.refl' {α Q : Type} (x : Except Exn (α × Q)) :
    SameRes (fun a b => b.1 = a.1 ∧ b.2 = a.2) x x := by
  cases x with
  | error e => exact .error e
  | ok a => exact .ok ⟨rfl, rfl⟩

theorem default_sim (env : Env) :
    QSim (Q := Single) (Q' := SingleOf Policy.default) env env (fun _ q q' => q' = q) where
  alloc := rfl
  empty := rfl
  addWorker w c h := by cases h; exact SameRes.refl' (Q := Single) _
  assign w h := by cases h; exact SameRes.refl' (Q := Single) _
  finished w h := by cases h; exact SameRes.refl' (Q := Single) _
  terminated w h := by cases h; exact SameRes.refl' (Q := Single) _
  enqueue r h := by cases h; exact SameRes.refl' (Q := Single) _
  queued h := by cases h; rfl
  current w h := by cases h; exact ⟨rfl, rfl⟩
  cancelled w h := by cases h; exact ⟨rfl, rfl⟩

/-- **C89, default arguments.** With the default arguments the template is the single-queue manager of
    the other properties: it gives the same answers to all calls, and the broker cannot be told
    apart. -/
theorem C89_default (cfg : HConfig) (env : Env) (ms : List Msg) (cs : List Spec.Call) :
    observed (SingleOf Policy.default) cfg env ms = observed Single cfg env ms ∧
      Spec.answers env 0 (QueueManager.empty : SingleOf Policy.default) cs
        = Spec.answers env 0 (QueueManager.empty : Single) cs :=
  ⟨observed_sim (default_sim env) cfg ms, (answers_sim (default_sim env) cs rfl).symm⟩

/-! ## Any arguments -/

variable {π : Policy}

/-- **C89, no job is lost or reported twice.** Whatever the order of the jobs and the choice of the
    idle worker: the accepted and adopted jobs are the jobs the broker holds and those whose result it
    reported (as C01). -/
theorem C89_accounting [π.Lawful] {cfg : HConfig} {env : Env} {h : List (Tr (SingleOf π))}
    {s : HState (SingleOf π)} (hr : Run cfg env h s) (j : String) :
    h.countP (Spec.accepts j) + h.countP (Spec.adopts j)
      = (heldJobs s).count j + (emitted h).countP (Spec.isFinal j) :=
  C01_job_accounting hr j

/-- **C89, jobs go to capable workers, one at a time, a bounded number of times.** (As C03, C04 and
    C06.) -/
theorem C89_dispatch [π.Lawful] {cfg : HConfig} {env : Env} {h : List (Tr (SingleOf π))}
    {s : HState (SingleOf π)} (hr : Run cfg env h s) :
    (∀ j, (emitted h).countP (Spec.isEvalOf j) ≤ h.countP (Spec.accepts j) * max 1 cfg.maxFailures) ∧
    (∀ h1 t h2, h = h1 ++ t :: h2 → ∀ o ∈ t.outs, Spec.isEval o = true →
      ∃ c ∈ h1 ++ [t], ∃ i ∈ h1 ++ [t], ∃ j fs w ds, JobOrigin c j fs ∧ WorkerOrigin i w ds ∧
        (w ∈ t.pre.workers ∨ w ∈ t.post.workers) ∧ o.identity = w.identity ∧
        o.data = "eval" :: j :: Spec.payloadFrames fs ∧
        Spec.Capable w.hwgroup (Spec.headerFrames ds) (Spec.headerFrames fs)) ∧
    (∀ i, (emitted h).countP (Spec.isEvalTo i)
      ≤ h.countP (Spec.fromWorker "done" i) + h.countP (Spec.fromWorker "init" i)) := by
  refine ⟨C03_bounded_dispatches hr, ?_, C06_one_outstanding_job hr⟩
  rintro h1 t h2 rfl o ho he
  exact C04_capable_workers hr ho he

/-- **C89, the comparator decides.** An evaluation message sent while a message from a worker is
    handled either gives out again the job the worker just reported an internal error for, or it
    gives to this worker a waiting job such that the comparator puts no other waiting job whose
    demands the worker declared before it; the other jobs go on waiting.  (C18 for the default
    comparator.) -/
theorem C89_order [π.Lawful] {cfg : HConfig} {env : Env} {h1 h2 : List (Tr (SingleOf π))}
    {t : Tr (SingleOf π)} {s : HState (SingleOf π)} (hr : Run cfg env (h1 ++ t :: h2) s)
    (hk : t.msg.key = "workers") {o : Msg} (ho : o ∈ t.outs) (he : Spec.isEval o = true) :
    (∃ j text, t.msg.data = ["done", j, "INTERNAL_ERROR", text] ∧ Spec.isEvalOf j o = true ∧
      ∀ e ∈ Single.jobs t.pre.queue, e ∈ Single.jobs t.post.queue) ∨
    ∃ w ∈ t.post.workers, ∃ e ∈ Single.jobs t.pre.queue, w.identity = t.msg.identity ∧
      o = ⟨"workers", w.identity, e.1.frames⟩ ∧
      (∃ fs, Requested h1 e.1 fs ∧ DeclaredFor (h1 ++ [t]) w fs) ∧
      (∀ e' ∈ Single.jobs t.pre.queue, ∃ fs, Requested h1 e'.1 fs ∧
        (e' ≠ e → DeclaredFor (h1 ++ [t]) w fs → π.before w e' e = false)) ∧
      (e :: Single.jobs t.post.queue).Perm (Single.jobs t.pre.queue) := by
  obtain ⟨hr1, hst, hr2⟩ := hr.prefix
  rcases SingleOf.step_takes hr1.inv.1 hst hk ho he with ⟨w, r, text, g1, rfl, g0, gc, g2⟩ |
      ⟨w, e, rfl, g1, g2⟩
  · left
    refine ⟨r.jobId, text, g1, ?_, g2⟩
    obtain ⟨w0, hb⟩ := g0
    have hh : r ∈ (ls t.pre 0).held := by rw [LS.mem_held]; exact .inl ⟨w0, hb⟩
    obtain ⟨extra, hf⟩ := (hr1.prov.1 r hh gc).frames
    simp [Spec.isEvalOf, sendMsg, hf, keyWorkers]
  · right
    have hw : w ∈ t.post.workers := hr2.inv.1.mem_reg.2 (by simpa [LawfulQM.reg] using g2.reg)
    have hin : ∀ e ∈ Single.jobs t.pre.queue, e.1 ∈ que t.pre.queue := by
      intro e he
      simp only [LawfulQM.que, Multiset.mem_coe]
      exact List.mem_map.2 ⟨e, he, rfl⟩
    have horig : ∀ e ∈ Single.jobs t.pre.queue, ∃ fs, Requested h1 e.1 fs ∧
        (w.Can e.1.headers ↔ DeclaredFor (h1 ++ [t]) w fs) := by
      intro e he
      obtain ⟨fs, k1, _, x, k2, k3⟩ := hr1.waiting_origin (hin e he)
      refine ⟨fs, k1, ?_⟩
      rw [k3]
      constructor
      · intro hc
        obtain ⟨i, hi, ds, hwo⟩ := hr2.worker_origin hw
        exact ⟨i, hi, ds, hwo, (origin_can hr2 k2 hi hwo).1 hc⟩
      · rintro ⟨i, hi, ds, hwo, hc⟩
        exact (origin_can hr2 k2 hi hwo).2 hc
    obtain ⟨fs, k1, k2⟩ := horig e g2.mem
    refine ⟨w, hw, e, g2.mem, g1, rfl, ⟨fs, k1, k2.1 g2.can⟩, ?_, g2.rest⟩
    intro e' he'
    obtain ⟨fs', k3, k4⟩ := horig e' he'
    exact ⟨fs', k3, fun hn hd => g2.first e' he' hn (k4.2 hd)⟩

instance [π.Lawful] [π.Eager] : Draining (SingleOf π) where
  idle h := h.2.1
  waiting {q r} hi hr := by
    obtain ⟨w, hw, hc⟩ := que_can hi r hr
    refine ⟨w, hw, ?_⟩
    by_cases hn : (QueueManager.currentRequest q w).1 = none
    · left
      simp only [LawfulQM.que, Multiset.mem_coe] at hr
      obtain ⟨e, he, rfl⟩ := List.mem_map.1 hr
      exact ⟨by simpa [LawfulQM.reg] using hw, hn, e, he, hc⟩
    · exact .inr hn

/-- **C89, no worker idles while it could work, except after an internal error.** If the selector finds an idle worker
    whenever there is a suitable one: a worker that is idle although a job waits that it could do has
    been idle since it reported an internal error.  (C17 for the default selector; the exception is
    real, `C17_refuted_single`.) -/
theorem C89_busy [π.Lawful] [π.Eager] {cfg : HConfig} {env : Env}
    {h : List (Tr (SingleOf π))} {s : HState (SingleOf π)} (hr : Run cfg env h s) {e : Entry}
    (he : e ∈ Single.jobs s.queue) :
    ∃ fs, Requested h e.1 fs ∧
      ∀ w ∈ s.workers, DeclaredFor h w fs → Idle s w → StalledByError h w := by
  have hq : e.1 ∈ que s.queue := by
    simp only [LawfulQM.que, Multiset.mem_coe]
    exact List.mem_map.2 ⟨e, he, rfl⟩
  obtain ⟨fs, h1, h2, _⟩ := hr.waiting_origin hq
  refine ⟨fs, h1, fun w hw hd hid => ?_⟩
  have hmem : w ∈ Single.workers s.queue := by
    have := hr.inv.1.mem_reg.1 hw
    simpa [LawfulQM.reg] using this
  have hst : Conserving.Stall s.queue w := ⟨hmem, hid, e, he, (h2 w hw).2 hd⟩
  obtain ⟨a, t, b, g1, g2, g3, g4, g5, g6⟩ := hr.stall hst
  exact ⟨a, t, b, g1, g2, g3, g4, g5, fun t' ht' => (g6 t' ht').2.1⟩

/-- **C89, every job can be finished.** (As C69.) -/
theorem C89_completable [π.Lawful] [π.Eager] {cfg : HConfig} {env : Env}
    {h : List (Tr (SingleOf π))} {s : HState (SingleOf π)} (hr : Run cfg env h s)
    (hn : (s.workers.map (·.identity)).Nodup)
    (hs : ∀ w ∈ s.workers, Idle s w → ¬ StalledByError h w) :
    ∃ h2 s', Run cfg env (h ++ h2) s' ∧ heldJobs s' = 0 ∧ h2.length = (heldJobs s).card ∧
      (∀ t ∈ h2, ∃ w ∈ s.workers, ∃ j, t.msg = ⟨"workers", w.identity, ["done", j, "OK"]⟩) ∧
      (toFrontend (emitted h2) : Multiset (List String))
        = (heldJobs s).map (fun j => ["type", "job-status", "id", j, "status", "OK"]) :=
  C69_completable hr hn hs

/-! ## Another policy, and one that is not lawful -/

/-- Last come, first served, and the idle worker with the highest address. -/
def Policy.lifo : Policy where
  before _ a b := decide (b.2 < a.2)
  order srt _ l := (srt.sort l).reverse
  select m _ r := Single.select r m.reverse

instance : Policy.lifo.Lawful where
  perm srt _ l := (List.reverse_perm _).trans (srt.perm l)
  sorted srt _ l := List.pairwise_reverse.2 ((srt.sorted l).imp (by
    intro a b h
    simp only [Policy.lifo, decide_eq_false_iff_not]
    omega))
  selects h := by
    rcases Single.select_ok h with ⟨w, hw, h1, h2⟩ | ⟨h1, _⟩
    · cases hw; exact ⟨List.mem_reverse.1 h1, h2⟩
    · cases h1
  throws h := by
    obtain ⟨w, h1, h2⟩ := Single.select_error h
    exact ⟨_, List.mem_reverse.1 h1, h2⟩

instance : Policy.lifo.Eager where
  none h := by
    rcases Single.select_ok h with ⟨w, hw, _⟩ | ⟨_, h1⟩
    · cases hw
    · exact fun w hw => h1 w (List.mem_reverse.2 hw)

def lifoMsgs : List Msg :=
  [fromW "w1" ["init", "group", "env=c"],
   fromC "client" ["eval", "J1", "env=c", "", "x"],
   fromC "client" ["eval", "J2", "env=c", "", "x"],
   fromC "client" ["eval", "J3", "env=c", "", "x"]]

/-- With the other policy the last of the waiting jobs is given out, not the first. -/
example : ∃ (h1 : List (Tr (SingleOf Policy.lifo))) (t : Tr (SingleOf Policy.lifo))
    (h2 : List (Tr (SingleOf Policy.lifo))) (s : HState (SingleOf Policy.lifo)),
    Run cfg0 env0 (h1 ++ t :: h2) s ∧ t.msg.key = "workers" ∧
      (∃ o ∈ t.outs, Spec.isEval o = true ∧ Spec.isEvalOf "J3" o = true) ∧
      (Single.jobs s.queue).length = 1 ∧ (heldJobs s).count "J2" = 1 := by
  obtain ⟨h1, t, h2, s, hr, _, hm, _, hp⟩ := exists_split (Q := SingleOf Policy.lifo) (cfg := cfg0)
    (env := env0) lifoMsgs (fromW "w1" ["done", "J1", "OK"]) []
    (fun t s => t.outs.any (fun o => Spec.isEval o && Spec.isEvalOf "J3" o) &&
      decide ((Single.jobs s.queue).length = 1 ∧
        (((LawfulQM.busy s.queue).map (fun p => p.2.jobId) +
          (LawfulQM.que s.queue).map (fun r => r.jobId)).count "J2" = 1)))
    (by decide +kernel)
  simp only [List.any_eq_true, Bool.and_eq_true, decide_eq_true_eq] at hp
  obtain ⟨⟨o, ho, h3, h4⟩, h5, h6⟩ := hp
  refine ⟨h1, t, h2, s, hr, by rw [hm]; rfl, ⟨o, ho, h3, h4⟩, h5, ?_⟩
  simpa [heldJobs, Multiset.map_add] using h6

/-- A selector that does not ask whether the worker is idle. -/
def Policy.anyWorker : Policy where
  before _ a b := decide (a.2 < b.2)
  order srt _ l := srt.sort l
  select m _ r := Single.select r (m.map (fun e => (e.1, none)))

/-- **C89, the selector's contract is needed.** With a selector that may choose a busy worker the
    worker is sent a second job before it reports the first, and the first is forgotten: the worker's
    report about it is ignored, no result is ever sent to the frontend, and nothing is left to do. -/
theorem C89_contract_needed : ∃ (h : List (Tr (SingleOf Policy.anyWorker)))
    (s : HState (SingleOf Policy.anyWorker)), Run cfg0 env0 h s ∧
      h.countP (Spec.accepts "J1") = 1 ∧ h.countP (Spec.accepts "J2") = 1 ∧
      (emitted h).countP (Spec.isEvalTo "w1") = 2 ∧
      (∃ t ∈ h, t.msg = ⟨"workers", "w1", ["done", "J1", "OK"]⟩) ∧
      (emitted h).countP (Spec.isFinal "J1") = 0 ∧ (emitted h).countP (Spec.isFinal "J2") = 1 ∧
      Single.jobs s.queue = [] ∧ ∀ p ∈ Single.current s.queue, p.2 = none := by
  obtain ⟨h, s, hr, hp⟩ := exists_run (Q := SingleOf Policy.anyWorker) (cfg := cfg0) (env := env0)
    [fromW "w1" ["init", "group", "env=c"],
     fromC "client" ["eval", "J1", "env=c", "", "x"],
     fromC "client" ["eval", "J2", "env=c", "", "x"],
     fromW "w1" ["done", "J1", "OK"], fromW "w1" ["done", "J2", "OK"]]
    (fun h s => decide (h.countP (Spec.accepts "J1") = 1 ∧ h.countP (Spec.accepts "J2") = 1 ∧
      (emitted h).countP (Spec.isEvalTo "w1") = 2 ∧
      (∃ t ∈ h, t.msg = ⟨"workers", "w1", ["done", "J1", "OK"]⟩) ∧
      (emitted h).countP (Spec.isFinal "J1") = 0 ∧ (emitted h).countP (Spec.isFinal "J2") = 1 ∧
      Single.jobs s.queue = [] ∧ ∀ p ∈ Single.current s.queue, p.2 = none)) (by decide +kernel)
  exact ⟨h, s, hr, of_decide_eq_true hp⟩

/-- The hypotheses of `C89_completable` and `C89_busy` are met after four messages. -/
example : ∃ (h : List (Tr (SingleOf Policy.lifo))) (s : HState (SingleOf Policy.lifo)),
    Run cfg0 env0 h s ∧ (s.workers.map (·.identity)).Nodup ∧
      (∀ w ∈ s.workers, Idle s w → ¬ StalledByError h w) ∧ (Single.jobs s.queue).length = 2 := by
  obtain ⟨h, s, hr, hp⟩ := exists_run (Q := SingleOf Policy.lifo) (cfg := cfg0) (env := env0) lifoMsgs
    (fun _ s => decide ((s.workers.map (fun w : Worker => w.identity)).Nodup ∧
      (∀ w ∈ s.workers, (QueueManager.currentRequest s.queue w).1 ≠ none) ∧
      (Single.jobs s.queue).length = 2)) (by decide +kernel)
  obtain ⟨h1, h2, h3⟩ := of_decide_eq_true hp
  exact ⟨h, s, hr, h1, fun w hw hi => absurd hi (h2 w hw), h3⟩

end Broker
