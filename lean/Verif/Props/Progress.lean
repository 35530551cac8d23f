import Verif.Proof.Sent
import Verif.Props.Commands

/-!
# C54, C56, C57: jobs in progress were sent, jobs of dead workers are passed on, no job is given up early
-/

set_option linter.unusedSectionVars false

namespace Broker

open QueueManager LawfulQM

variable {Q : Type} [QueueManager Q] [LawfulQM Q]

theorem le_sum_of_mem {α : Type} {l : List α} {f : α → Nat} {x : α} (h : x ∈ l) :
    f x ≤ (l.map f).sum := by
  induction l with
  | nil => simp at h
  | cons a t ih =>
    simp only [List.map_cons, List.sum_cons]
    rcases List.mem_cons.1 h with rfl | h
    · omega
    · have := ih h; omega

theorem entering_pos {j : String} {evs : List Ev} {e : Ev} {r : Req} (he : e ∈ evs)
    (hr : r ∈ e.enters) (hj : r.jobId = j) : 0 < entering j evs :=
  Nat.lt_of_lt_of_le (Multiset.countP_pos.2 ⟨r, hr, hj⟩)
    (le_sum_of_mem (f := fun e : Ev => e.enters.countP (fun r => r.jobId = j)) he)

/-- A job known only by its id was adopted from a worker. -/
theorem Run.adopted {cfg : HConfig} {env : Env} {h : List (Tr Q)} {s : HState Q}
    (hr : Run cfg env h s) :
    ∀ r ∈ (ls s 0).held, r.complete = false → ∃ a ∈ h, Spec.adopts r.jobId a = true := by
  refine Run.induct (P := fun h s => ∀ r ∈ (ls s 0).held, r.complete = false →
    ∃ a ∈ h, Spec.adopts r.jobId a = true) ?_ ?_ hr
  · rw [ls_init_held]; simp
  · intro h s m s' evs hr hinv hlinv ih _ hi
    refine (hi.steps.mem cfg.maxFailures_lt
      (P := fun r => r.complete = false → ∃ a ∈ h ++ [(⟨s, m, s'⟩ : Tr Q)], Spec.adopts r.jobId a = true)
      (R := fun _ => True) hlinv ?_ (fun _ _ => trivial) ?_ (fun _ _ _ _ => trivial)).1.1
    · intro r hr' hc
      obtain ⟨a, ha, h1⟩ := ih r hr' hc
      exact ⟨a, by simp [ha], h1⟩
    · intro e he r hre hc
      refine ⟨_, List.mem_append_right _ List.mem_cons_self, ?_⟩
      have h1 := entering_eq hi r.jobId
      have h2 : 0 < entering r.jobId evs := entering_pos he hre rfl
      have hkey : m.key = keyWorkers := by
        have hsh := hi.script.shape e he
        cases e with
        | accept x =>
          exfalso
          simp only [Ev.enters, Multiset.mem_singleton] at hre
          subst hre
          obtain ⟨a, b, rfl⟩ := List.append_of_mem he
          obtain ⟨L1, _, h2⟩ := hi.steps.append_inv
          cases h2 with
          | cons h3 _ => cases h3 with
            | accept _ hid hcc hcan => rw [hcc] at hc; cases hc
        | register w c => exact hsh.1
        | _ => simp [Ev.enters] at hre
      have hacc : Spec.accepts r.jobId (⟨s, m, s'⟩ : Tr Q) = false := by
        simp [Spec.accepts, hkey, keyWorkers]
      rw [hacc] at h1
      by_contra hcon
      simp [hcon] at h1
      omega

/-! ## C54 -/

/-- The worker itself reported the end of what it was processing. -/
def Spec.Reported (w : Worker) (t : Tr Q) : Prop :=
  Spec.handledReport t = true ∧
    t.pre.workers.find? (fun w => w.identity == t.msg.identity) = some w

/-- **C54.** If according to the broker a registered worker processes a job, then in some step before
    either the job's evaluation message was sent to that worker, or the worker registered saying it
    was processing that job; and ever since the worker has been registered, the broker has considered
    it busy with that job, and it has not reported. -/
theorem C54_in_progress_was_sent {cfg : HConfig} {env : Env} {h : List (Tr Q)} {s : HState Q}
    (hr : Run cfg env h s) {w : Worker} {r : Req} (hw : w ∈ s.workers)
    (hc : (currentRequest s.queue w).1 = some r) :
    ∃ h1 t h2, h = h1 ++ t :: h2 ∧
      (∀ t' ∈ t :: h2, w ∈ t'.post.workers ∧ (currentRequest t'.post.queue w).1 = some r) ∧
      (∀ t' ∈ h2, ¬ Spec.Reported w t') ∧
      ((r.complete = true ∧ ∃ o ∈ t.outs, o.identity = w.identity ∧
          Spec.isEvalOf r.jobId o = true ∧ o.data = r.frames) ∨
       (r.complete = false ∧ t.msg.identity = w.identity ∧ Spec.adopts r.jobId t = true ∧
          w ∉ t.pre.workers)) := by
  have cur : ∀ {s : HState Q}, HInv s → (w ∈ s.workers ∧ (currentRequest s.queue w).1 = some r ↔
      (w, r) ∈ busy s.queue) := by
    intro s hs
    constructor
    · rintro ⟨h1, h2⟩; exact ((LawfulQM.current hs.qinv (hs.mem_reg.1 h1)).2 r).1 h2
    · intro h1
      have h2 := busy_reg hs.qinv _ h1
      exact ⟨hs.mem_reg.2 h2, ((LawfulQM.current hs.qinv h2).2 r).2 h1⟩
  have hb := (cur hr.inv.1).1 ⟨hw, hc⟩
  clear hw hc
  revert hb
  refine Run.induct (P := fun h s => (w, r) ∈ busy s.queue →
    ∃ h1 t h2, h = h1 ++ t :: h2 ∧
      (∀ t' ∈ t :: h2, w ∈ t'.post.workers ∧ (currentRequest t'.post.queue w).1 = some r) ∧
      (∀ t' ∈ h2, ¬ Spec.Reported w t') ∧
      ((r.complete = true ∧ ∃ o ∈ t.outs, o.identity = w.identity ∧
          Spec.isEvalOf r.jobId o = true ∧ o.data = r.frames) ∨
       (r.complete = false ∧ t.msg.identity = w.identity ∧ Spec.adopts r.jobId t = true ∧
          w ∉ t.pre.workers))) ?_ ?_ hr
  · intro hb; simp [HState.init, busy_empty] at hb
  · intro h s m s' evs hr hs hl ih _ hi hb
    have hpost := (cur hi.inv).2 hb
    rcases hi.steps.mem_busy cfg.maxFailures_lt hl (p := (w, r)) hb with ⟨e, he, hst⟩ | ⟨h1, h2⟩
    · refine ⟨h, ⟨s, m, s'⟩, [], rfl, ?_, by simp, ?_⟩
      · intro t' ht'
        rw [List.mem_singleton.1 ht']
        exact hpost
      · cases hg : e.gives with
        | some p =>
          have hp : p = (w, r) := by cases e <;> simp_all [Ev.gives, Ev.starts]
          subst hp
          obtain ⟨g1, _, g3, _⟩ := hr.gives hi he hg
          obtain ⟨x, hx⟩ := g3.frames
          refine .inl ⟨g1, sendMsg w r, ?_, rfl, ?_, rfl⟩
          · show sendMsg w r ∈ s'.outs
            rw [hi.outs, msgsOf, List.mem_flatMap]
            refine ⟨e, he, ?_⟩
            cases e <;> simp_all [Ev.gives, Ev.msgs]
          · simp [Spec.isEvalOf, sendMsg, keyWorkers, hx]
        | none =>
          cases e with
          | register w' c =>
            cases c with
            | none => simp [Ev.starts] at hst
            | some r' =>
              simp only [Ev.starts, Option.some.injEq, Prod.mk.injEq] at hst
              obtain ⟨rfl, rfl⟩ := hst
              obtain ⟨rest, hf⟩ := step_registers hi _ he w' rfl
              have hinc : r'.complete = false := by
                obtain ⟨a, b, rfl⟩ := List.append_of_mem he
                obtain ⟨L1, _, h2⟩ := hi.steps.append_inv
                cases h2 with
                | cons h3 _ => cases h3 with
                  | register _ _ hwf hfr hcur =>
                    obtain ⟨j, hj⟩ := hcur r' rfl
                    rw [hj]; rfl
              have had : Spec.adopts r'.jobId (⟨s, m, s'⟩ : Tr Q) = true := by
                have h1 := entering_eq hi r'.jobId
                have h2 : 0 < entering r'.jobId evs :=
                  entering_pos he (Multiset.mem_singleton_self _) rfl
                have hacc : Spec.accepts r'.jobId (⟨s, m, s'⟩ : Tr Q) = false := by
                  have := hf.key
                  simp only at this
                  simp [Spec.accepts, this, keyWorkers]
                rw [hacc] at h1
                by_contra hcon
                simp [hcon] at h1
                omega
              exact .inr ⟨hinc, hf.identity, had, fun hm => hf.fresh (List.mem_map.2 ⟨_, hm, rfl⟩)⟩
          | send => simp [Ev.gives] at hg
          | pull => simp [Ev.gives] at hg
          | _ => simp [Ev.starts] at hst
    · obtain ⟨a, t, b, rfl, i1, i2, i3⟩ := ih h1
      refine ⟨a, t, b ++ [⟨s, m, s'⟩], by simp, ?_, ?_, i3⟩
      · intro t' ht'
        rw [← List.cons_append] at ht'
        rcases List.mem_append.1 ht' with ht' | ht'
        · exact i1 t' ht'
        · rw [List.mem_singleton.1 ht']; exact hpost
      · intro t' ht'
        rcases List.mem_append.1 ht' with ht' | ht'
        · exact i2 t' ht'
        · rw [List.mem_singleton.1 ht']
          rintro ⟨hrep, hfind⟩
          obtain ⟨e, he, hend⟩ := handled_frees hs hi hrep hfind h1
          exact h2 e he hend

/-- Messages for the check: a job that failed once on one worker is resent, another waits, a third
    is adopted. -/
def progressMsgs : List Msg :=
  [fromW "w1" ["init", "group", "env=c"],
   fromW "w2" ["init", "group", "env=java", "", "current_job=J3"],
   fromC "client" ["eval", "J1", "env=c", "", "x"],
   fromC "client" ["eval", "J2", "env=c", "", "y"],
   fromW "w1" ["done", "J1", "INTERNAL_ERROR", "disk full"],
   fromW "w1" ["progress", "J1", "TASK"]]

/-- The jobs in progress. -/
def inProgress {Q : Type} [QueueManager Q] (s : HState Q) : List (String × Option String) :=
  s.workers.map (fun w => (w.identity, (currentRequest s.queue w).1.map (·.jobId)))

example : ∃ h s, Run (Q := Single) cfg0 env0 h s ∧
    (decide (h.length = 6) && inProgress s == [("w1", some "J1"), ("w2", some "J3")] &&
      decide ((emitted h).countP (Spec.isEvalTo "w1") = 2)) = true :=
  exists_run progressMsgs (fun h s => decide (h.length = 6) &&
    inProgress s == [("w1", some "J1"), ("w2", some "J3")] &&
      decide ((emitted h).countP (Spec.isEvalTo "w1") = 2)) (by decide +kernel)

/-! ## C57 -/

/-- **C57.** A job is reported failed only if the worker processing it reported just that, or the
    broker knows the job only from a worker that announced it, or no registered worker is left that
    declared what an accepted request for the job asked for, or the job's evaluation message was sent
    at least `max_request_failures` times. -/
theorem C57_no_premature_failure {cfg : HConfig} {env : Env} {h1 h2 : List (Tr Q)} {t : Tr Q}
    {s : HState Q} (hr : Run cfg env (h1 ++ t :: h2) s) {o : Msg} (ho : o ∈ t.outs) {j : String}
    (hf : Spec.isFailed j o = true) :
    (∃ text, t.msg.key = "workers" ∧ t.msg.data = ["done", j, "FAILED", text] ∧
      o.data = ["type", "job-status", "id", j, "status", "FAILED", "message", text]) ∨
    (∃ a ∈ h1, Spec.adopts j a = true) ∨
    (∃ c ∈ h1, ∃ fs, JobOrigin c j fs ∧ ∀ i ∈ h1 ++ [t], ∀ w ds, WorkerOrigin i w ds →
      w ∈ t.post.workers → ¬ Spec.Capable w.hwgroup (Spec.headerFrames ds) (Spec.headerFrames fs)) ∨
    cfg.maxFailures ≤ (emitted (h1 ++ [t])).countP (Spec.isEvalOf j) := by
  obtain ⟨hr1, hstep, hr2⟩ := hr.prefix
  obtain ⟨evs, hi⟩ := step_info hr1.inv.1 hstep
  have ho' : o ∈ t.post.outs := ho
  rw [hi.outs, msgsOf, List.mem_flatMap] at ho'
  obtain ⟨e, he, hoe⟩ := ho'
  have hfin : Spec.isFinal j o = true := by
    simp only [Spec.isFailed, Bool.and_eq_true, beq_iff_eq] at hf
    simp only [Spec.isFinal, Bool.and_eq_true, beq_iff_eq]
    refine ⟨hf.1, ?_⟩
    have := congrArg (List.take 5) hf.2
    simpa [List.take_take] using this
  have hsh := hi.script.shape e he
  have hleave : 0 < e.leaves.countP (fun r => r.jobId = j) := by
    rw [← final_msgs hsh j]
    exact List.countP_pos_iff.2 ⟨o, hoe, hfin⟩
  obtain ⟨r, hrl, hrj⟩ := Multiset.countP_pos.1 hleave
  subst hrj
  cases e with
  | done w r' =>
    exfalso
    simp only [Ev.leaves, Multiset.mem_singleton] at hrl
    subst hrl
    simp only [Ev.msgs, List.mem_singleton] at hoe
    subst hoe
    simp [Spec.isFailed, okMsg] at hf
  | failed w r' text =>
    simp only [Ev.leaves, Multiset.mem_singleton] at hrl
    subst hrl
    simp only [Ev.msgs, List.mem_singleton] at hoe
    subst hoe
    refine .inl ⟨text, hsh.1, ?_, rfl⟩
    cases hi.script with
    | done hk hd h =>
      cases h with
      | unknown => simp at he
      | short => simp at he
      | stale => simp at he
      | report hw hm hb hj hf hds =>
        cases hds with
        | failed hst hr' ht hs' =>
          simp only [List.mem_cons, Ev.failed.injEq] at he
          rcases he with ⟨rfl, rfl, rfl⟩ | he
          · subst hst hr'
            rw [hm]
            rw [hd] at hm
            simp only [List.cons.injEq] at hm
            rw [← hm.1, hj]
          · cases ht <;> simp at he
        | ok _ ht => cases ht <;> simp at he
        | exhausted _ _ _ _ ht => cases ht <;> simp at he
        | _ => simp at he
    | timer hk hd ht h => exact (h.script.shape _ he).elim
    | init hk hd h =>
      cases h with
      | short => simp at he
      | same => simp at he
      | fresh hm hw hn hf hr => cases hr <;> simp at he
      | again hm hw hne hn hf hr => cases hr <;> simp at he
    | eval hk => rw [hsh.1] at hk; exact absurd hk (by decide)
    | _ => simp at he
  | giveUp r' text =>
    simp only [Ev.leaves, Multiset.mem_singleton] at hrl
    subst hrl
    obtain ⟨g1, g2⟩ := hi.giveUp_why hr1 he
    rcases g2 with g2 | g2 | g2
    · exact .inr (.inl (hr1.adopted r g1 g2))
    · exact .inr (.inr (.inr g2))
    · by_cases hc : r.complete = true
      · obtain ⟨c, hch, fs, hs, md, extra, hcf⟩ := hr1.prov.1 r g1 hc
        obtain ⟨e1, _, _⟩ := evalHeaders_some _ _ _ _ hcf.parse
        refine .inr (.inr (.inl ⟨c, hch, fs, ⟨hcf.key, hcf.data, e1, hcf.accepted⟩, ?_⟩))
        intro i hih w ds hwo hw hcap
        have h1 := (origin_can hr2 hcf.parse hih hwo).2 hcap
        have h2 := g2 w hw
        have : r.headers = hs := by rw [hcf.eq]; rfl
        rw [this, h1] at h2
        cases h2
      · exact .inr (.inl (hr1.adopted r g1 (by simpa using hc)))
  | _ => simp [Ev.leaves] at hrl

/-! ## C56 -/

theorem LStep.reg_expires {M : Nat} {L L' : LS} {e : Ev} (h : LStep M L e L') (ht : TimerEv e) :
    L'.reg.card + (if e.expires then 1 else 0) = L.reg.card := by
  cases h with
  | expire w cur qs g b q hg hb hq => simp [Ev.expires, hg]
  | say => rfl
  | send => rfl
  | park => rfl
  | giveUp => rfl
  | _ => exact ht.elim

theorem LSteps.reg_expires {M : Nat} {L L' : LS} {es : List Ev} (h : LSteps M L es L')
    (ht : ∀ e ∈ es, TimerEv e) : L'.reg.card + es.countP Ev.expires = L.reg.card := by
  induction h with
  | nil => simp
  | cons h _ ih =>
    have h1 := ih (fun e he => ht e (List.mem_cons_of_mem _ he))
    have h2 := h.reg_expires (ht _ List.mem_cons_self)
    rw [List.countP_cons]
    omega

/-- **C56.** Let `d` workers be removed for inactivity while a timer message is handled, and let a job
    be held that was never adopted and whose evaluation message was sent at most
    `max_request_failures - d` times so far.  If a worker remains registered that declared everything
    the accepted requests for the job asked for, then the job is still held afterwards and no final
    notification about it is sent. -/
theorem C56_passed_on {cfg : HConfig} {env : Env} {h1 h2 : List (Tr Q)} {t : Tr Q} {s : HState Q}
    (hr : Run cfg env (h1 ++ t :: h2) s) (hk : t.msg.key = "timer") {j : String}
    (hno : ∀ a ∈ h1, Spec.adopts j a = false)
    (hle : (emitted h1).countP (Spec.isEvalOf j) + (t.pre.workers.length - t.post.workers.length)
      ≤ cfg.maxFailures)
    (hcap : ∃ w ∈ t.post.workers, ∃ i ∈ h1, ∃ ds, WorkerOrigin i w ds ∧
      ∀ c ∈ h1, ∀ fs, JobOrigin c j fs →
        Spec.Capable w.hwgroup (Spec.headerFrames ds) (Spec.headerFrames fs)) :
    (heldJobs t.post).count j = (heldJobs t.pre).count j ∧ t.outs.countP (Spec.isFinal j) = 0 := by
  obtain ⟨hr1, hstep, hr2⟩ := hr.prefix
  obtain ⟨evs, hi⟩ := step_info hr1.inv.1 hstep
  have hk' : t.msg.key = keyTimer := hk
  have htev : ∀ e ∈ evs, TimerEv e := by
    intro e he
    cases hi.script with
    | timer _ _ _ h => exact h.script.shape e he
    | other => simp at he
    | workerUnknown => simp at he
    | clientUnknown => simp at he
    | init hk => rw [hk'] at hk; exact absurd hk (by decide)
    | done hk => rw [hk'] at hk; exact absurd hk (by decide)
    | ping hk => rw [hk'] at hk; exact absurd hk (by decide)
    | progress hk => rw [hk'] at hk; exact absurd hk (by decide)
    | eval hk => rw [hk'] at hk; exact absurd hk (by decide)
    | stats hk => rw [hk'] at hk; exact absurd hk (by decide)
    | freeze hk => rw [hk'] at hk; exact absurd hk (by decide)
    | unfreeze hk => rw [hk'] at hk; exact absurd hk (by decide)
  have hcomp : ∀ r ∈ (ls t.pre 0).held, r.jobId = j → r.complete = true := by
    intro r hrm hj
    by_contra hc
    obtain ⟨a, ha, h1⟩ := hr1.adopted r hrm (by simpa using hc)
    rw [hj, hno a ha] at h1; cases h1
  have hcard := hi.steps.reg_expires htev
  have hd : evs.countP Ev.expires = t.pre.workers.length - t.post.workers.length := by
    have c1 : t.pre.workers.length = (ls t.pre 0).reg.card := by
      show _ = (reg t.pre.queue).card
      rw [← hr1.inv.1.reg_eq]; rfl
    have c2 : t.post.workers.length = (ls t.post 0).reg.card := by
      show _ = (reg t.post.queue).card
      rw [← hi.inv.reg_eq]; rfl
    omega
  have hpaid := hr1.paid
  have hB : ∀ p ∈ (ls t.pre 0).busy, p.2 ∈ (ls t.pre 0).held :=
    fun p hp => LS.mem_held.2 (.inl ⟨p.1, hp⟩)
  have hQ : ∀ r ∈ (ls t.pre 0).que, r ∈ (ls t.pre 0).held :=
    fun r hr => LS.mem_held.2 (.inr (.inl hr))
  have hspare : Spare cfg.maxFailures (evs.countP Ev.expires) j (ls t.pre 0) := by
    rw [hd]
    refine ⟨fun p hp hj => ?_, fun r hr hj => ?_, fun r hr => by simp [ls] at hr⟩
    · have := hpaid.busy p hp (hcomp p.2 (hB p hp) hj)
      rw [hj] at this; omega
    · have := hpaid.que r hr (hcomp r (hQ r hr) hj)
      rw [hj] at this; omega
  have hno' := hi.steps.spare cfg.maxFailures_lt hr1.inv.2 htev hspare (by
    intro r hrm hj
    refine ⟨hcomp r hrm hj, ?_⟩
    obtain ⟨w, hw, i, hih, ds, hwo, hall⟩ := hcap
    refine ⟨w, hi.inv.mem_reg.1 hw, ?_⟩
    obtain ⟨c, hch, fs, hs, md, extra, hcf⟩ := hr1.prov.1 r hrm (hcomp r hrm hj)
    obtain ⟨e1, _, _⟩ := evalHeaders_some _ _ _ _ hcf.parse
    have h1 := hall c hch fs (by
      rw [← hj]; exact ⟨hcf.key, hcf.data, e1, hcf.accepted⟩)
    have h2 := (origin_can hr1 hcf.parse hih hwo).2 h1
    have : r.headers = hs := by rw [hcf.eq]; rfl
    rw [this]; exact h2)
  have hleaves : ∀ e ∈ evs, e.leaves.countP (fun r => r.jobId = j) = 0 := by
    intro e he
    have := htev e he
    cases e with
    | giveUp r text =>
      rw [Multiset.countP_eq_zero]
      intro x hx
      simp only [Ev.leaves, Multiset.mem_singleton] at hx
      subst hx
      exact hno' x text he
    | done => exact this.elim
    | failed => exact this.elim
    | _ => rfl
  have henters : ∀ e ∈ evs, e.enters.countP (fun r => r.jobId = j) = 0 := by
    intro e he
    have := htev e he
    cases e with
    | accept => exact this.elim
    | register => exact this.elim
    | _ => rfl
  constructor
  · have h1 := hi.steps.held_count (fun r => r.jobId = j)
    rw [← heldJobs_count, ← heldJobs_count, sum_zero hleaves, sum_zero henters] at h1
    omega
  · show t.post.outs.countP _ = 0
    rw [hi.outs, countP_msgsOf]
    exact sum_zero (fun e he => by rw [final_msgs (hi.script.shape e he) j]; exact hleaves e he)

/-- Messages for the checks: a worker dies with a job, another one can take it. -/
def passOnMsgs : List Msg :=
  [fromW "w1" ["init", "group", "env=c"], fromC "client" ["eval", "J1", "env=c", "", "x"],
   fromW "w2" ["init", "group", "env=c", "os=linux"], fromW "w1" ["ping"], fromW "w2" ["ping"],
   tick "1001", tick "1001", fromW "w2" ["ping"], tick "1001"]

/-- C56: one of three allowed dispatches was used, one worker dies, the other one gets the job. -/
example : ∃ h1 t h2 s, Run (Q := Single) cfg0 env0 (h1 ++ t :: h2) s ∧
    h1.map (·.msg) = passOnMsgs ∧ t.msg = tick "1001" ∧ h2.map (·.msg) = [] ∧
    (inProgress t.pre == [("w1", some "J1"), ("w2", none)] && inProgress t.post == [("w2", some "J1")] &&
      t.outs.any (Spec.isEvalOf "J1")) = true :=
  exists_split passOnMsgs (tick "1001") [] (fun t _ =>
    inProgress t.pre == [("w1", some "J1"), ("w2", none)] && inProgress t.post == [("w2", some "J1")] &&
      t.outs.any (Spec.isEvalOf "J1")) (by decide +kernel)

example : ∃ h1 t h2 s, Run (Q := Multi) cfg0 env0 (h1 ++ t :: h2) s ∧
    h1.map (·.msg) = passOnMsgs ∧ t.msg = tick "1001" ∧ h2.map (·.msg) = [] ∧
    (inProgress t.pre == [("w1", some "J1"), ("w2", none)] && inProgress t.post == [("w2", some "J1")] &&
      t.outs.any (Spec.isEvalOf "J1")) = true :=
  exists_split passOnMsgs (tick "1001") [] (fun t _ =>
    inProgress t.pre == [("w1", some "J1"), ("w2", none)] && inProgress t.post == [("w2", some "J1")] &&
      t.outs.any (Spec.isEvalOf "J1")) (by decide +kernel)

/-- C57: after two more failures the job is reported failed, having been dispatched three times. -/
example : ∃ h s, Run (Q := Multi) cfg0 env0 h s ∧
    (decide ((emitted h).countP (Spec.isEvalOf "J1") = 3) && (emitted h).any (Spec.isFailed "J1") &&
      !h.any (Spec.adopts "J1")) = true :=
  exists_run (passOnMsgs ++ [tick "1001", fromW "w2" ["done", "J1", "INTERNAL_ERROR", "e1"],
    fromW "w2" ["done", "J1", "INTERNAL_ERROR", "e2"]]) (fun h _ =>
    decide ((emitted h).countP (Spec.isEvalOf "J1") = 3) && (emitted h).any (Spec.isFailed "J1") &&
      !h.any (Spec.adopts "J1")) (by decide +kernel)

end Broker
