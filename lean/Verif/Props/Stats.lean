import Verif.Proof.Counters
import Verif.Props.Liveness

/-!
# C22, C23: statistics
-/

set_option linter.unusedSectionVars false

namespace Broker

open LawfulQM

variable {Q : Type} [QueueManager Q] [LawfulQM Q]

/-- The reply `reply` reports the number `n` under the key `k`. -/
def Reports (reply : List String) (k : String) (n : Nat) : Prop :=
  ∃ v, (k, v) ∈ Spec.pairs reply ∧ Spec.IsDecimal v n

theorem stats_reply {cfg : HConfig} {env : Env} {s : HState Q} {m : Msg}
    (hc : Spec.isCommand "get-runtime-stats" m = true) :
    ∃ reply, step cfg env m s = .ok () { s with outs := [⟨"clients", m.identity, reply⟩] } ∧
      StatsReply reply ∧ reply = statsReply s.stats s.frozen := by
  obtain ⟨reply, hs, hsr, _⟩ := C43_stats_reply (cfg := cfg) (env := env) (s := s) hc
  obtain ⟨hk, hd⟩ := isCommand_iff.1 hc
  refine ⟨reply, hs, hsr, ?_⟩
  obtain ⟨key, identity, data⟩ := m
  cases hk
  cases data with
  | nil => cases hd
  | cons c rest =>
    cases hd
    have hs2 : step cfg env ⟨"clients", identity, "get-runtime-stats" :: rest⟩ s =
      .ok () { s with outs := [⟨"clients", identity, statsReply s.stats s.frozen⟩] } := rfl
    rw [hs2] at hs
    injection hs with _ hs
    have := congrArg HState.outs hs
    simpa using this.symm

theorem szInc_mod {x y : Nat} (h : x = y % 2 ^ 64) : szInc x = (y + 1) % 2 ^ 64 := by
  subst h
  unfold szInc SZ
  omega

theorem counters {cfg : HConfig} {env : Env} {h : List (Tr Q)} {s : HState Q}
    (hr : Run cfg env h s) : s.stats.evaluated = (emitted h).countP Spec.isSuccess % 2 ^ 64 ∧
      s.stats.failed = h.countP Spec.failureReport % 2 ^ 64 := by
  refine Run.induct (P := fun h s => s.stats.evaluated = (emitted h).countP Spec.isSuccess % 2 ^ 64 ∧
      s.stats.failed = h.countP Spec.failureReport % 2 ^ 64) ?_ ?_ hr
  · exact ⟨rfl, rfl⟩
  · intro h s m s' evs hr hinv _ ih _ hi
    have hc := success_count hi
    have e1 : emitted (h ++ [⟨s, m, s'⟩]) = emitted h ++ s'.outs := by simp [emitted, Tr.outs]
    rw [e1, List.countP_append, List.countP_append, hc, List.countP_singleton]
    cases stats_case hinv hi with
    | same hs hd hf =>
      have hs : s'.stats = s.stats := hs
      rw [hs, hd, hf]; exact ih
    | ok hs hd hf =>
      have hs : s'.stats = s.stats.ok := hs
      rw [hs, hd, hf]; exact ⟨szInc_mod ih.1, ih.2⟩
    | bad hs hd hf =>
      have hs : s'.stats = s.stats.bad := hs
      rw [hs, hd, hf]; exact ⟨ih.1, szInc_mod ih.2⟩
    | gauges hg hd hf =>
      have h1 : s'.stats.evaluated = s.stats.evaluated := hg.evaluated
      have h2 : s'.stats.failed = s.stats.failed := hg.failed
      rw [h1, h2, hd, hf]; exact ih

/-- **C22.** At every point of every history a client that asks for the statistics is told, under
    `evaluated-jobs`, the number of final notifications of success sent so far and, under
    `failed-jobs`, the number of failure reports handled so far, both modulo 2^64. -/
theorem C22_counters {cfg : HConfig} {env : Env} {h : List (Tr Q)} {s : HState Q}
    (hr : Run cfg env h s) {m : Msg} (hc : Spec.isCommand "get-runtime-stats" m = true) :
    ∃ reply s', step cfg env m s = .ok () s' ∧ s'.outs = [⟨"clients", m.identity, reply⟩] ∧
      StatsReply reply ∧
      Reports reply "evaluated-jobs" ((emitted h).countP Spec.isSuccess % 2 ^ 64) ∧
      Reports reply "failed-jobs" (h.countP Spec.failureReport % 2 ^ 64) := by
  obtain ⟨reply, hs, hsr, hrep⟩ := stats_reply (cfg := cfg) (env := env) (s := s) hc
  obtain ⟨h1, h2⟩ := counters hr
  refine ⟨reply, _, hs, rfl, hsr, ⟨natStr s.stats.evaluated, ?_, ?_⟩,
    ⟨natStr s.stats.failed, ?_, ?_⟩⟩
  · rw [hrep]; simp [statsReply, Spec.pairs]
  · rw [← h1]; exact natStr_isDecimal _
  · rw [hrep]; simp [statsReply, Spec.pairs]
  · rw [← h2]; exact natStr_isDecimal _

/-- **C43, freezing.** At every point of every history the reply to a question for the statistics says
    under `is-frozen`, and only there, `1` if the last of the `freeze` and `unfreeze` commands handled so
    far was `freeze`, and `0` otherwise. -/
theorem C43_frozen_flag {cfg : HConfig} {env : Env} {h : List (Tr Q)} {s : HState Q}
    (hr : Run cfg env h s) {m : Msg} (hc : Spec.isCommand "get-runtime-stats" m = true) :
    ∃ reply s', step cfg env m s = .ok () s' ∧ s'.outs = [⟨"clients", m.identity, reply⟩] ∧
      ∀ v, ("is-frozen", v) ∈ Spec.pairs reply ↔
        v = if Spec.frozenAfter (h.map (·.msg)) = true then "1" else "0" := by
  obtain ⟨reply, hs, hsr, hrep⟩ := stats_reply (cfg := cfg) (env := env) (s := s) hc
  refine ⟨reply, _, hs, rfl, fun v => ?_⟩
  rw [hrep, ← frozen_after hr]
  unfold statsReply
  cases s.stats.inProgress <;> simp [Spec.pairs]

/-- Frozen twice, unfrozen once. -/
example : ∃ h s, Run (Q := Single) cfg0 env0 h s ∧
    (Spec.frozenAfter (h.map (·.msg)) == false && s.outs.any (fun o =>
      (Spec.pairs o.data).contains ("is-frozen", "0"))) = true :=
  exists_run [fromC "c" ["freeze"], fromC "c" ["freeze"], fromC "c" ["unfreeze"],
    fromC "c" ["get-runtime-stats"]] _ (by decide +kernel)

/-! ## C23 -/

/-- The worker has no request according to the queue manager. -/
def isIdle (s : HState Q) (w : Worker) : Bool := (QueueManager.currentRequest s.queue w).1.isNone

theorem busy_card {s : HState Q} (h : HInv s) :
    (busy s.queue).card = s.workers.countP (fun w => !isIdle s w) := by
  have e1 : (busy s.queue).map (·.1) = (reg s.queue).filter (fun w => (!isIdle s w) = true) := by
    refine (Multiset.Nodup.ext ?_ ?_).2 ?_
    · refine Multiset.Nodup.of_map (fun w : Worker => w.addr) ?_
      rw [Multiset.map_map]
      exact busy_nodup h.qinv
    · exact (Multiset.Nodup.of_map _ (reg_nodup h.qinv)).filter _
    · intro w
      rw [Multiset.mem_map, Multiset.mem_filter]
      constructor
      · rintro ⟨⟨w', r⟩, hb, rfl⟩
        have hreg := busy_reg h.qinv _ hb
        refine ⟨hreg, ?_⟩
        rw [isIdle, ((current h.qinv hreg).2 r).2 hb]
        rfl
      · rintro ⟨hreg, hi⟩
        cases hc : (QueueManager.currentRequest s.queue w).1 with
        | none => rw [isIdle, hc] at hi; cases hi
        | some r => exact ⟨(w, r), ((current h.qinv hreg).2 r).1 hc, rfl⟩
  have e2 : (busy s.queue).card = ((busy s.queue).map (·.1)).card := by rw [Multiset.card_map]
  rw [e2, e1, ← h.reg_eq, Multiset.filter_coe, Multiset.coe_card, List.countP_eq_length_filter]
  congr 1
  simp

/-- The true numbers of a state. -/
structure TrueGauges (s : HState Q) (nw ni np nq : Nat) : Prop where
  workers : nw = s.workers.length
  idle : ni = s.workers.countP (isIdle s)
  progress : np = s.workers.countP (fun w => !isIdle s w)
  queued : nq + np = Multiset.card (heldJobs s)

theorem Gauges.truth {s : HState Q} {old : Stats} (h : HInv s) (hg : Gauges s old) :
    ∃ p, s.stats.inProgress = some p ∧
      TrueGauges s s.stats.workerCount s.stats.idle p s.stats.queued := by
  have hb := busy_card h
  refine ⟨_, hg.inProgress, hg.workerCount, ?_, hb, ?_⟩
  · have h1 := hg.idle
    have h2 := List.length_eq_countP_add_countP (isIdle s) (l := s.workers)
    have h3 : s.workers.countP (fun w => !isIdle s w)
        = s.workers.countP (fun w => decide ¬ isIdle s w = true) := by
      congr 1; funext w; cases isIdle s w <;> rfl
    omega
  · rw [hg.queued, heldJobs, Multiset.card_add, Multiset.card_map, Multiset.card_map, Nat.add_comm]

theorem gauges_after {cfg : HConfig} {env : Env} {h1 h2 : List (Tr Q)} {t : Tr Q} {s : HState Q}
    (hr : Run cfg env (h1 ++ t :: h2) s) (ht : t.msg.key = "timer")
    (hno : ∀ u ∈ h2, u.msg.key ≠ "timer") :
    ∃ p, s.stats.inProgress = some p ∧
      TrueGauges t.post s.stats.workerCount s.stats.idle p s.stats.queued := by
  have hr' : Run cfg env ((h1 ++ [t]) ++ h2) s := by simpa using hr
  refine Run.induct_after (P := fun _ s => ∃ p, s.stats.inProgress = some p ∧
    TrueGauges t.post s.stats.workerCount s.stats.idle p s.stats.queued) hr' ?_ ?_
  · intro s hr1
    obtain ⟨hr0, hs0, hr2⟩ := Run.prefix (h2 := []) hr1
    have hpost : s = t.post := Run.last hr1
    subst hpost
    obtain ⟨evs, hi⟩ := step_info hr0.inv.1 hs0
    cases stats_case hr0.inv.1 hi with
    | same _ _ _ hk => exact absurd ht hk
    | ok _ _ _ hk => exact absurd ht hk
    | bad _ _ _ hk => exact absurd ht hk
    | gauges hg => exact Gauges.truth hi.inv hg
  · intro h u h' hh hru hsu ih
    obtain ⟨evs, hi⟩ := step_info hru.inv.1 hsu
    have hk := hno u (by rw [hh]; simp)
    cases stats_case hru.inv.1 hi with
    | same hs => rw [show u.post.stats = _ from hs]; exact ih
    | ok hs => rw [show u.post.stats = _ from hs]; exact ih
    | bad hs => rw [show u.post.stats = _ from hs]; exact ih
    | gauges _ _ _ hk' => exact absurd hk' hk

/-- The number of waiting jobs in the statistics before the first timer message. -/
theorem queued_before {cfg : HConfig} {env : Env} {h : List (Tr Q)} {s : HState Q}
    (hr : Run cfg env h s) (hno : ∀ t ∈ h, t.msg.key ≠ "timer") : s.stats.queued = 0 := by
  refine Run.induct (P := fun h s => (∀ t ∈ h, t.msg.key ≠ "timer") → s.stats.queued = 0)
    ?_ ?_ hr hno
  · intro _; rfl
  · intro h s m s' evs hr hinv _ ih _ hi hno
    have ih := ih (fun t ht => hno t (List.mem_append_left _ ht))
    have hk : m.key ≠ "timer" := hno ⟨s, m, s'⟩ (by simp)
    cases stats_case hinv hi with
    | same hs => rw [show s'.stats = _ from hs]; exact ih
    | ok hs => rw [show s'.stats = _ from hs]; exact ih
    | bad hs => rw [show s'.stats = _ from hs]; exact ih
    | gauges _ _ _ hk' => exact absurd hk' hk

/-- **C23.** A client that asks for the statistics any time after a timer message and before the next
    one is told the true numbers right after that timer message: registered workers, workers
    without a job, workers with a job, waiting jobs. -/
theorem C23_gauges {cfg : HConfig} {env : Env} {h1 h2 : List (Tr Q)} {t : Tr Q} {s : HState Q}
    (hr : Run cfg env (h1 ++ t :: h2) s) (ht : t.msg.key = "timer")
    (hno : ∀ u ∈ h2, u.msg.key ≠ "timer") {m : Msg}
    (hc : Spec.isCommand "get-runtime-stats" m = true) :
    ∃ reply s' nw ni np nq, step cfg env m s = .ok () s' ∧
      s'.outs = [⟨"clients", m.identity, reply⟩] ∧ StatsReply reply ∧
      TrueGauges t.post nw ni np nq ∧ nw = ni + np ∧
      Reports reply "worker-count" nw ∧ Reports reply "idle-worker-count" ni ∧
      Reports reply "jobs-in-progress" np ∧ Reports reply "queued-jobs" nq := by
  obtain ⟨p, hp, hg⟩ := gauges_after hr ht hno
  obtain ⟨reply, hs, hsr, hrep⟩ := stats_reply (cfg := cfg) (env := env) (s := s) hc
  refine ⟨reply, _, _, _, _, _, hs, rfl, hsr, hg, ?_, ⟨natStr s.stats.workerCount, ?_, natStr_isDecimal _⟩,
    ⟨natStr s.stats.idle, ?_, natStr_isDecimal _⟩, ⟨natStr p, ?_, natStr_isDecimal _⟩,
    ⟨natStr s.stats.queued, ?_, natStr_isDecimal _⟩⟩
  · rw [hg.workers, hg.idle, hg.progress, List.length_eq_countP_add_countP (isIdle t.post)]
    congr 2
    funext w; cases isIdle t.post w <;> rfl
  all_goals rw [hrep]; simp [statsReply, Spec.pairs, hp]

/-- Jobs with all three kinds of reports, a tick, more messages. -/
def statsMsgs : List Msg :=
  [fromW "w1" ["init", "group", "env=c"], fromW "w2" ["init", "group", "env=c"],
   fromC "client" ["eval", "J1", "env=c", "", "x"], fromC "client" ["eval", "J2", "env=c", "", "x"],
   fromC "client" ["eval", "J3", "env=c", "", "x"], fromC "client" ["eval", "J4", "env=c", "", "x"],
   fromW "w1" ["done", "J1", "OK"], fromW "w2" ["done", "J2", "FAILED", "no"],
   fromW "w1" ["done", "J3", "INTERNAL_ERROR", "oops"]]

example : (exec0 Single cfg0 env0 statsMsgs).map (fun x =>
    ((emitted x.1).countP Spec.isSuccess, x.1.countP Spec.failureReport,
      x.2.stats.evaluated, x.2.stats.failed)) = some (1, 2, 1, 2) := by decide +kernel

example : ∃ (h1 h2 : List (Tr Multi)) (t : Tr Multi) (s : HState Multi),
    Run cfg0 env0 (h1 ++ t :: h2) s ∧ t.msg.key = "timer" ∧ (∀ u ∈ h2, u.msg.key ≠ "timer") ∧
      (t.post.workers.length, s.workers.length, t.post.stats.idle, t.post.stats.inProgress,
        t.post.stats.queued) = (2, 3, 0, some 2, 2) := by
  obtain ⟨h1, t, h2, s, hr, _, ht, h2m, hp⟩ := exists_split (Q := Multi) (cfg := cfg0) (env := env0)
    (statsMsgs.take 6) (tick "100") [fromW "w3" ["init", "group", "env=c"]]
    (fun t s => decide ((t.post.workers.length, s.workers.length, t.post.stats.idle,
      t.post.stats.inProgress, t.post.stats.queued) = (2, 3, 0, some 2, 2))) (by decide +kernel)
  refine ⟨h1, h2, t, s, hr, by rw [ht]; rfl, ?_, of_decide_eq_true hp⟩
  intro u hu
  have : u.msg ∈ h2.map (·.msg) := List.mem_map.2 ⟨u, hu, rfl⟩
  rw [h2m] at this
  rw [List.mem_singleton.1 this]
  decide

end Broker
