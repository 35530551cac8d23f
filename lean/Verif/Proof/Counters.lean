import Verif.Proof.Total

/-! # Counters and gauges -/

set_option linter.unusedSectionVars false
set_option linter.unusedSimpArgs false

namespace Broker

open QueueManager LawfulQM

variable {Q : Type} [QueueManager Q] [LawfulQM Q]

/-- The event is a reported success. -/
def Ev.isDone : Ev → Bool
  | .done _ _ => true
  | _ => false

theorem success_msgs {inp : Msg} {e : Ev} (h : EvShape inp e) :
    e.msgs.countP Spec.isSuccess = if e.isDone then 1 else 0 := by
  cases e with
  | say m =>
    have : Spec.isSuccess m = false := by
      cases h with
      | client hk hm hi => simp [Spec.isSuccess, hm, keyClients]
      | monitor h => simp [Spec.isSuccess, h.1, keyMonitor]
      | worker hk hm hi hc hd => simp [Spec.isSuccess, hm, keyWorkers]
      | error hk hm hi hd =>
        obtain ⟨t, ht⟩ := hd
        simp [Spec.isSuccess, hm, ht]
    simp [Ev.msgs, Ev.isDone, this]
  | _ => simp [Ev.msgs, Ev.isDone, Spec.isSuccess, sendMsg, okMsg, failMsg, keyWorkers, keyNotifier]

theorem success_count {cfg : HConfig} {env : Env} {m : Msg} {s s' : HState Q} {evs : List Ev}
    (hi : StepInfo cfg env m s s' evs) : s'.outs.countP Spec.isSuccess = evs.countP Ev.isDone := by
  have h1 : s'.outs = msgsOf evs := by simpa using hi.outs
  rw [h1, countP_msgsOf, sum_map_congr (fun e he => success_msgs (hi.script.shape e he))]
  clear hi h1
  induction evs with
  | nil => rfl
  | cons e t ih => rw [List.map_cons, List.sum_cons, ih, List.countP_cons]; split <;> omega

theorem failureReport_iff {t : Tr Q} : Spec.failureReport t = true ↔
    ∃ j st text w, t.msg.key = "workers" ∧ t.msg.data = ["done", j, st, text] ∧
      (st = "FAILED" ∨ st = "INTERNAL_ERROR") ∧
      t.pre.workers.find? (fun w => w.identity == t.msg.identity) = some w ∧
      (QueueManager.currentRequest t.pre.queue w).1.map (·.jobId) = some j := by
  unfold Spec.failureReport
  constructor
  · intro h
    split at h
    · rename_i c j st text hd
      simp only [Bool.and_eq_true, Bool.or_eq_true, beq_iff_eq] at h
      obtain ⟨⟨⟨hk, rfl⟩, hst⟩, hc⟩ := h
      split at hc
      · cases hc
      · rename_i w hw
        exact ⟨j, st, text, w, hk, hd, hst, hw, by simpa using hc⟩
    · cases h
  · rintro ⟨j, st, text, w, hk, hd, hst, hw, hc⟩
    rw [hd]
    simp only [hk, hw, hc, beq_self_eq_true, Bool.true_and, Bool.and_true, Bool.or_eq_true, beq_iff_eq]
    exact hst

theorem Next.noDone {w : Worker} {t : List Ev} (h : Next w t) : t.countP Ev.isDone = 0 := by
  cases h <;> rfl

theorem RegScript.noDone {w : Worker} {cur : Option Req} {evs : List Ev}
    (h : RegScript w cur evs) : evs.countP Ev.isDone = 0 := by
  cases h <;> rfl

theorem TimerEv.noDone {evs : List Ev} (h : ∀ e ∈ evs, TimerEv e) : evs.countP Ev.isDone = 0 := by
  rw [List.countP_eq_zero]
  intro e he
  have := h e he
  cases e <;> simp_all [TimerEv, Ev.isDone]

/-- What a step does to the statistics. -/
inductive StatsCase (t : Tr Q) (evs : List Ev) : Prop
  | same (hs : t.post.stats = t.pre.stats) (hd : evs.countP Ev.isDone = 0)
      (hf : Spec.failureReport t = false) (hk : t.msg.key ≠ keyTimer)
  | ok (hs : t.post.stats = t.pre.stats.ok) (hd : evs.countP Ev.isDone = 1)
      (hf : Spec.failureReport t = false) (hk : t.msg.key ≠ keyTimer)
  | bad (hs : t.post.stats = t.pre.stats.bad) (hd : evs.countP Ev.isDone = 0)
      (hf : Spec.failureReport t = true) (hk : t.msg.key ≠ keyTimer)
  | gauges (hg : Gauges t.post t.pre.stats) (hd : evs.countP Ev.isDone = 0)
      (hf : Spec.failureReport t = false) (hk : t.msg.key = keyTimer)

theorem heard_stats (cfg : HConfig) (i : String) (s : HState Q) :
    (({ s with outs := [] } : HState Q).heard cfg i).stats = s.stats := by
  rw [heard_frame]

theorem stats_case {cfg : HConfig} {env : Env} {m : Msg} {s s' : HState Q} {evs : List Ev}
    (hh : HInv s) (hi : StepInfo cfg env m s s' evs) : StatsCase (⟨s, m, s'⟩ : Tr Q) evs := by
  have nof : (m.key ≠ keyWorkers ∨ m.data.head? ≠ some "done") →
      Spec.failureReport (⟨s, m, s'⟩ : Tr Q) = false := by
    intro hne
    by_contra hf
    obtain ⟨j, st, text, w, hk, hd, _⟩ := failureReport_iff.1 (Bool.not_eq_false _ ▸ hf)
    rcases hne with hne | hne
    · exact hne hk
    · exact hne (by rw [show m.data = _ from hd]; rfl)
  cases hi.script with
  | init hk hd h =>
    have hf := nof (.inr (by rw [hd]; simp))
    have hkt : m.key ≠ keyTimer := fun h => wkey_ne_tkey (hk.symm.trans h)
    cases h with
    | short _ he => exact .same (by rw [he]; exact heard_stats ..) rfl hf hkt
    | same he => exact .same (by rw [he]; exact heard_stats ..) rfl hf hkt
    | fresh _ _ _ hfr hr => exact .same (hfr.stats.trans (heard_stats ..)) hr.noDone hf hkt
    | again _ _ _ _ hfr hr =>
      exact .same (hfr.stats.trans (heard_stats ..)) (by simp [Ev.isDone, hr.noDone]) hf hkt
  | done hk hd h =>
    have hkt : m.key ≠ keyTimer := fun h => wkey_ne_tkey (hk.symm.trans h)
    cases h with
    | unknown hw he =>
      refine .same (by rw [he]; exact heard_stats ..) rfl ?_ hkt
      by_contra hf
      obtain ⟨j, st, text, w, _, _, _, hw', _⟩ := failureReport_iff.1 (Bool.not_eq_false _ ▸ hf)
      rw [heard_workers, regFind] at hw
      rw [show s.workers.find? _ = some w from hw'] at hw
      cases hw
    | short hl he =>
      refine .same (by rw [he]; exact heard_stats ..) rfl ?_ hkt
      by_contra hf
      obtain ⟨j, st, text, w, _, hd', _⟩ := failureReport_iff.1 (Bool.not_eq_false _ ▸ hf)
      rw [show m.data = _ from hd'] at hl
      simp at hl
    | @stale w r c j st rest hw hm hb hj he =>
      refine .same (by rw [he]; exact heard_stats ..) rfl ?_ hkt
      by_contra hf
      obtain ⟨j', st', text, w', _, hd', _, hw', hc⟩ := failureReport_iff.1 (Bool.not_eq_false _ ▸ hf)
      rw [heard_workers, regFind] at hw
      rw [show s.workers.find? _ = some w' from hw'] at hw
      cases hw
      have hb' : (w, r) ∈ busy s.queue := by rw [heard_frame] at hb; exact hb
      rw [((LawfulQM.current hh.qinv (busy_reg hh.qinv _ hb')).2 r).2 hb'] at hc
      rw [show m.data = _ from hd'] at hm
      cases hm
      exact hj (by simpa using hc.symm)
    | @report w r c j st rest _ hw hm hb hj hf hds =>
      have hb' : (w, r) ∈ busy s.queue := by rw [heard_frame] at hb; exact hb
      have hcur := ((LawfulQM.current hh.qinv (busy_reg hh.qinv _ hb')).2 r).2 hb'
      rw [heard_workers, regFind] at hw
      have hc : c = "done" := by rw [hd] at hm; cases hm; rfl
      subst hc hj
      have yes : ∀ {text}, rest = [text] → (st = "FAILED" ∨ st = "INTERNAL_ERROR") →
          Spec.failureReport (⟨s, m, s'⟩ : Tr Q) = true := by
        intro text hr hst
        subst hr
        exact failureReport_iff.2 ⟨_, st, text, w, hk, hm, hst, hw, by
          show Option.map _ (QueueManager.currentRequest s.queue w).1 = _
          rw [hcur]; rfl⟩
      cases hds with
      | ok hst ht hs =>
        refine .ok (hs.trans (by rw [heard_stats])) ?_ ?_ hkt
        · rw [List.countP_cons, ht.noDone]; rfl
        · by_contra hf
          obtain ⟨j', st', text, w', _, hd', hst', _⟩ := failureReport_iff.1 (Bool.not_eq_false _ ▸ hf)
          rw [show m.data = _ from hd'] at hm
          cases hm
          subst hst
          rcases hst' with h | h <;> exact absurd h (by decide)
      | failed hst hr ht hs =>
        exact .bad (hs.trans (by rw [heard_stats])) (by simp [Ev.isDone, ht.noDone])
          (yes hr (.inl hst)) hkt
      | adopted hst hr _ hs =>
        exact .bad (hs.trans (by rw [heard_stats])) rfl (yes hr (.inr hst)) hkt
      | exhausted hst hr _ _ ht hs =>
        exact .bad (hs.trans (by rw [heard_stats])) (by simp [Ev.isDone, ht.noDone])
          (yes hr (.inr hst)) hkt
      | resent hst hr _ _ hs =>
        exact .bad (hs.trans (by rw [heard_stats])) rfl (yes hr (.inr hst)) hkt
      | parked hst hr _ _ hs =>
        exact .bad (hs.trans (by rw [heard_stats])) rfl (yes hr (.inr hst)) hkt
      | ignored he hst =>
        refine .same (by rw [he]; exact heard_stats ..) rfl ?_ hkt
        by_contra hf
        obtain ⟨j', st', text, w', _, hd', hst', _⟩ := failureReport_iff.1 (Bool.not_eq_false _ ▸ hf)
        rw [show m.data = _ from hd'] at hm
        cases hm
        rcases hst.2 with h | h
        · rcases hst' with h' | h'
          · exact h.2 h'
          · exact h.1 h'
        · exact h rfl
  | ping hk hd h =>
    exact .same (by rw [h]; exact heard_stats ..) rfl (nof (.inr (by rw [hd]; simp)))
      (fun h => wkey_ne_tkey (hk.symm.trans h))
  | progress hk hd h =>
    exact .same (by rw [h]; exact heard_stats ..) rfl (nof (.inr (by rw [hd]; simp)))
      (fun h => wkey_ne_tkey (hk.symm.trans h))
  | workerUnknown hk hd hc h =>
    exact .same (by rw [h]; exact heard_stats ..) rfl (nof (.inr (by rw [hd]; simpa using hc.2.1)))
      (fun h => wkey_ne_tkey (hk.symm.trans h))
  | eval hk hd hf h =>
    refine .same hf.stats ?_ (nof (.inr (by rw [hd]; simp))) (fun h => ckey_ne_tkey (hk.symm.trans h))
    cases h with
    | malformed => rfl
    | frozen => rfl
    | submit _ _ _ h => cases h <;> rfl
  | stats hk hd h =>
    exact .same (by rw [h]) rfl (nof (.inr (by rw [hd]; simp)))
      (fun h => ckey_ne_tkey (hk.symm.trans h))
  | freeze hk hd h =>
    exact .same (by rw [h]) rfl (nof (.inr (by rw [hd]; simp)))
      (fun h => ckey_ne_tkey (hk.symm.trans h))
  | unfreeze hk hd h =>
    exact .same (by rw [h]) rfl (nof (.inr (by rw [hd]; simp)))
      (fun h => ckey_ne_tkey (hk.symm.trans h))
  | clientUnknown hk hd hc h =>
    exact .same (by rw [h]) rfl (nof (.inl (by rw [hk]; exact wkey_ne_ckey.symm)))
      (fun h => ckey_ne_tkey (hk.symm.trans h))
  | timer hk hd ht h =>
    exact .gauges h.gauges (TimerEv.noDone h.script.shape)
      (nof (.inl (by rw [hk]; exact wkey_ne_tkey.symm))) hk
  | other hk h => exact .same (by rw [h]) rfl (nof (.inl hk.1)) hk.2.2

end Broker
