import Verif.Props.Progress
import Verif.Props.Workers

/-!
# C55, C59: messages for the monitor, reports of failed jobs
-/

set_option linter.unusedSectionVars false

namespace Broker

open QueueManager LawfulQM

variable {Q : Type} [QueueManager Q] [LawfulQM Q]

namespace Spec

/-- Messages for the monitor among the emitted ones. -/
def toMonitor (os : List Msg) : List Msg := os.filter (fun o => o.key == "monitor")

/-- The message telling the monitor the state of a job. -/
def monitorMsg (j state : String) : Msg := ⟨"monitor", "recodex-monitor", [j, state]⟩

end Spec

/-! ## C55 -/

/-- **C55, clients.** While a client message is handled the monitor is told something only if the
    message is an evaluation request that is rejected although the broker is not frozen, namely that
    the job failed. -/
theorem C55_monitor_clients {cfg : HConfig} {env : Env} {h1 h2 : List (Tr Q)} {t : Tr Q}
    {s : HState Q} (hr : Run cfg env (h1 ++ t :: h2) s) (hk : t.msg.key = "clients") :
    (∀ j fs, t.msg.data = "eval" :: j :: fs → "" ∈ fs → Spec.toMonitor t.outs =
      if Spec.frozenAfter (h1.map (·.msg)) = false ∧ Spec.accepts j t = false then
        [Spec.monitorMsg j "FAILED"] else []) ∧
    ((∀ j fs, t.msg.data = "eval" :: j :: fs → "" ∉ fs) → Spec.toMonitor t.outs = []) := by
  obtain ⟨hr1, hstep, _⟩ := hr.prefix
  obtain ⟨evs, hi⟩ := step_info hr1.inv.1 hstep
  have hout : t.outs = msgsOf evs := hi.outs
  have hfr := frozen_after hr1
  constructor
  · intro j fs hd hdel
    have hacc : Spec.accepts j t = true ↔
        (⟨"clients", t.msg.identity, ["accept"]⟩ : Msg) ∈ t.outs := by
      simp [Spec.accepts, hk, hd, Tr.outs]
    obtain ⟨x, hx⟩ := evalHeaders_exists [] [] hdel
    obtain ⟨_, hscr⟩ := hi.script.eval_inv hk (by rw [hd]; rfl)
    cases hscr with
    | malformed h =>
      obtain ⟨j', rest, hd', hp⟩ := h
      rw [hd] at hd'
      simp only [List.cons.injEq, true_and] at hd'
      rw [← hd'.2, hx] at hp; cases hp
    | frozen hf h =>
      have hf' : t.pre.frozen = true := hf
      rw [← hfr, hf', hout]
      simp [Ev.msgs, Spec.toMonitor, keyClients]
    | submit hf hm hp h =>
      have hf' : t.pre.frozen = false := hf
      rw [hd] at hm
      simp only [List.cons.injEq, true_and] at hm
      obtain ⟨rfl, rfl⟩ := hm
      rw [← hfr, hf']
      cases h with
      | reject =>
        have ha : Spec.accepts j t = false := by
          rw [Bool.eq_false_iff]
          intro h; rw [hacc, hout] at h
          simp [Ev.msgs, keyClients, monMsg, keyMonitor] at h
        rw [ha, hout]
        simp [Ev.msgs, Spec.toMonitor, keyClients, monMsg, keyMonitor, monitorIdentity,
          Spec.monitorMsg]
      | give w =>
        have ha : Spec.accepts j t = true := by rw [hacc, hout]; simp [Ev.msgs, keyClients]
        rw [ha, hout]
        simp [Ev.msgs, Spec.toMonitor, keyClients, sendMsg, keyWorkers]
      | wait =>
        have ha : Spec.accepts j t = true := by rw [hacc, hout]; simp [Ev.msgs, keyClients]
        rw [ha, hout]
        simp [Ev.msgs, Spec.toMonitor, keyClients]
  · intro hno
    rw [hout]
    have hnw : keyClients ≠ keyWorkers := by decide
    have hnt : keyClients ≠ keyTimer := by decide
    have hk : t.msg.key = keyClients := hk
    cases hi.script with
    | init hk' => exact absurd (hk.symm.trans hk') hnw
    | done hk' => exact absurd (hk.symm.trans hk') hnw
    | ping hk' => exact absurd (hk.symm.trans hk') hnw
    | progress hk' => exact absurd (hk.symm.trans hk') hnw
    | timer hk' => exact absurd (hk.symm.trans hk') hnt
    | eval _ hd hf h =>
      cases h with
      | malformed => simp [Ev.msgs, Spec.toMonitor, keyClients]
      | frozen => simp [Ev.msgs, Spec.toMonitor, keyClients]
      | submit hf hm hp h =>
        exact absurd (evalHeaders_some _ _ _ _ hp).1 (hno _ _ hm)
    | stats => simp [Ev.msgs, Spec.toMonitor, keyClients]
    | freeze => simp [Ev.msgs, Spec.toMonitor, keyClients]
    | unfreeze => simp [Ev.msgs, Spec.toMonitor, keyClients]
    | workerUnknown => rfl
    | clientUnknown => rfl
    | other => rfl

/-- **C55, workers.** While a worker message other than `progress` is handled, the monitor is told
    something only if the message is the report of an internal error about a job that is thereupon
    reported failed, namely that the job failed; and it is told so for every such job that was not
    adopted from a worker. -/
theorem C55_monitor_workers {cfg : HConfig} {env : Env} {h1 h2 : List (Tr Q)} {t : Tr Q}
    {s : HState Q} (hr : Run cfg env (h1 ++ t :: h2) s) (hk : t.msg.key = "workers")
    (hc : t.msg.data.head? ≠ some "progress") :
    (Spec.toMonitor t.outs = [] ∨ ∃ j text, t.msg.data = ["done", j, "INTERNAL_ERROR", text] ∧
      Spec.toMonitor t.outs = [Spec.monitorMsg j "FAILED"] ∧ ∃ o ∈ t.outs, Spec.isFailed j o = true) ∧
    (∀ j text, t.msg.data = ["done", j, "INTERNAL_ERROR", text] →
      (∃ o ∈ t.outs, Spec.isFinal j o = true) → (∀ a ∈ h1, Spec.adopts j a = false) →
      Spec.toMonitor t.outs = [Spec.monitorMsg j "FAILED"]) := by
  obtain ⟨hr1, hstep, _⟩ := hr.prefix
  obtain ⟨evs, hi⟩ := step_info hr1.inv.1 hstep
  have hout : t.outs = msgsOf evs := hi.outs
  have hnw : keyWorkers ≠ keyClients := by decide
  have hnt : keyWorkers ≠ keyTimer := by decide
  have hk : t.msg.key = keyWorkers := hk
  have none : ∀ {os : List Msg}, t.outs = os → Spec.toMonitor os = [] →
      (∀ j, ∀ o ∈ os, Spec.isFinal j o = false) →
    (Spec.toMonitor t.outs = [] ∨ ∃ j text, t.msg.data = ["done", j, "INTERNAL_ERROR", text] ∧
      Spec.toMonitor t.outs = [Spec.monitorMsg j "FAILED"] ∧ ∃ o ∈ t.outs, Spec.isFailed j o = true) ∧
    (∀ j text, t.msg.data = ["done", j, "INTERNAL_ERROR", text] →
      (∃ o ∈ t.outs, Spec.isFinal j o = true) → (∀ a ∈ h1, Spec.adopts j a = false) →
      Spec.toMonitor t.outs = [Spec.monitorMsg j "FAILED"]) := by
    intro os ho hm hf
    rw [ho]
    refine ⟨.inl hm, fun j text _ ⟨o, h1, h2⟩ => ?_⟩
    rw [hf j o h1] at h2; cases h2
  have pulls : ∀ {w : Worker} {evs : List Ev}, Next w evs → Spec.toMonitor (msgsOf evs) = [] := by
    intro w evs h
    cases h <;> simp [Ev.msgs, sendMsg, Spec.toMonitor, keyWorkers]
  have hi0 := hi
  cases hi.script with
  | init hk' hd h =>
    have reg : ∀ {w : Worker} {cur : Option Req} {evs : List Ev}, RegScript w cur evs →
        Spec.toMonitor (msgsOf evs) = [] ∧ ∀ j, ∀ o ∈ msgsOf evs, Spec.isFinal j o = false := by
      intro w cur evs h
      cases h <;> simp [Ev.msgs, sendMsg, Spec.toMonitor, keyWorkers, Spec.isFinal]
    cases h with
    | short => exact none hout rfl (by simp)
    | same => exact none hout rfl (by simp)
    | fresh hm hw hn hf hrs => exact none hout (reg hrs).1 (reg hrs).2
    | again hm hw hne hn hf hrs =>
      refine none hout ?_ ?_
      · simp only [msgsOf_cons, Ev.msgs, Spec.toMonitor, List.filter_append]
        have := (reg hrs).1
        simp only [Spec.toMonitor] at this
        simp [this, keyNotifier]
      · intro j o ho
        simp only [msgsOf_cons, Ev.msgs, List.mem_append, List.mem_singleton] at ho
        rcases ho with rfl | ho
        · simp [Spec.isFinal]
        · exact (reg hrs).2 j o ho
  | done hk' hd h =>
    cases h with
    | unknown => exact none hout rfl (by simp)
    | short => exact none hout rfl (by simp)
    | stale => exact none hout rfl (by simp)
    | report hw hm hb hj hf hds =>
      rename_i w r c j st rest
      have hc : c = "done" := by
        rw [hd] at hm; simp only [List.cons.injEq] at hm; exact hm.1.symm
      subst hc hj
      rw [hm]
      cases hds with
      | ok hst ht hs' =>
        subst hst
        rw [hout]
        refine ⟨.inl ?_, ?_⟩
        · have := pulls ht
          simp only [Spec.toMonitor] at this ⊢
          simp [Ev.msgs, okMsg, keyNotifier, this]
        · intro j' text hd'; simp at hd'
      | failed hst hr' ht hs' =>
        subst hst
        rw [hout]
        refine ⟨.inl ?_, ?_⟩
        · have := pulls ht
          simp only [Spec.toMonitor] at this ⊢
          simp [Ev.msgs, failMsg, keyNotifier, this]
        · intro j' text hd'; simp at hd'
      | adopted hst hr' hcm hs' =>
        rw [hout]
        refine ⟨.inl (by simp [Ev.msgs, failMsg, keyNotifier, Spec.toMonitor]), ?_⟩
        intro j' text hd' _ hno
        exfalso
        have hb' : (w, r) ∈ busy t.pre.queue := by rw [heard_frame] at hb; exact hb
        obtain ⟨a, ha, had⟩ := hr1.adopted r (LS.mem_held.2 (.inl ⟨w, hb'⟩)) hcm
        simp only [List.cons.injEq, true_and] at hd'
        rw [hd'.1, hno a ha] at had; cases had
      | exhausted hst hr' hcm hfc ht hs' =>
        rename_i t' text
        subst hst hr'
        have hmon : Spec.toMonitor t.outs = [Spec.monitorMsg r.jobId "FAILED"] := by
          rw [hout]
          have := pulls ht
          simp only [Spec.toMonitor] at this ⊢
          simp [Ev.msgs, failMsg, keyNotifier, this, monMsg, keyMonitor, Spec.monitorMsg,
            monitorIdentity]
        refine ⟨.inr ⟨r.jobId, text, rfl, hmon, ?_⟩, ?_⟩
        · rw [hout]
          refine ⟨_, by simp only [msgsOf_cons, Ev.msgs, List.nil_append]; exact List.mem_append_left _ List.mem_cons_self, ?_⟩
          simp [Spec.isFailed, failMsg, keyNotifier]
        · intro j' text' hd' _ _
          simp only [List.cons.injEq, true_and] at hd'
          rw [← hd'.1]; exact hmon
      | resent hst hr' hcm hfc hs' =>
        rename_i x text
        obtain ⟨_, _, g3, _⟩ := hr1.gives hi0 (e := .send x r) (by simp) rfl
        obtain ⟨y, hy⟩ := g3.frames
        rw [hout]
        refine ⟨.inl (by simp [Ev.msgs, sendMsg, Spec.toMonitor, keyWorkers]), ?_⟩
        rintro j' text' _ ⟨o, ho, hfin⟩
        simp [Ev.msgs] at ho
        subst ho
        simp [Spec.isFinal, sendMsg, keyWorkers] at hfin
      | parked hst hr' hcm hfc hs' =>
        rw [hout]
        refine ⟨.inl (by simp [Ev.msgs, Spec.toMonitor]), ?_⟩
        rintro j' text' _ ⟨o, ho, hfin⟩
        simp [Ev.msgs] at ho
      | ignored hs' hst =>
        rw [hout]
        refine ⟨.inl rfl, ?_⟩
        rintro j' text' _ ⟨o, ho, hfin⟩
        simp at ho
  | ping hk' hd h =>
    refine none hout ?_ ?_ <;> simp [Ev.msgs, Spec.toMonitor, keyWorkers, Spec.isFinal]
  | progress hk' hd h => rw [hd] at hc; exact absurd rfl hc
  | workerUnknown => exact none hout rfl (by simp)
  | eval hk' => exact absurd (hk.symm.trans hk') hnw
  | stats hk' => exact absurd (hk.symm.trans hk') hnw
  | freeze hk' => exact absurd (hk.symm.trans hk') hnw
  | unfreeze hk' => exact absurd (hk.symm.trans hk') hnw
  | clientUnknown hk' => exact absurd (hk.symm.trans hk') hnw
  | timer hk' => exact absurd (hk.symm.trans hk') hnt
  | other hk' => exact absurd hk hk'.1

/-- The event reassigns job `j`. -/
def Ev.moves (j : String) : Ev → Nat
  | .send _ r => if r.jobId = j then 1 else 0
  | .park r => if r.jobId = j then 1 else 0
  | _ => 0

/-- What the monitor is told about the requests of an expired worker. -/
structure Told (j : String) (evs : List Ev) (extra : Nat) : Prop where
  only : ∀ o ∈ Spec.toMonitor (msgsOf evs), ∃ j', o = Spec.monitorMsg j' "FAILED" ∨
    o = Spec.monitorMsg j' "ABORTED"
  failed : (msgsOf evs).count (Spec.monitorMsg j "FAILED")
    = (msgsOf evs).countP (Spec.isFinal j) + extra
  aborted : (msgsOf evs).count (Spec.monitorMsg j "ABORTED") = (evs.map (Ev.moves j)).sum

theorem Told.append {j : String} {a b : List Ev} {n m : Nat} (h1 : Told j a n) (h2 : Told j b m) :
    Told j (a ++ b) (n + m) := by
  refine ⟨?_, ?_, ?_⟩
  · intro o ho
    simp only [msgsOf_append, Spec.toMonitor, List.filter_append, List.mem_append] at ho
    rcases ho with ho | ho
    · exact h1.only o ho
    · exact h2.only o ho
  · have := h1.failed; have := h2.failed
    simp only [msgsOf_append, List.count_append, List.countP_append]; omega
  · have := h1.aborted; have := h2.aborted
    simp only [msgsOf_append, List.count_append, List.map_append, List.sum_append]; omega

theorem Told.nil (j : String) : Told j [] 0 := ⟨by simp [Spec.toMonitor], rfl, rfl⟩

theorem monMsg_eq (j state : String) : monMsg j state = Spec.monitorMsg j state := rfl

theorem told_giveUp (j : String) (r : Req) (text : String) :
    Told j [.giveUp r text, .say (monMsg r.jobId "FAILED")] 0 := by
  refine ⟨?_, ?_, ?_⟩
  · intro o ho
    simp [Ev.msgs, Spec.toMonitor, failMsg, keyNotifier, monMsg_eq, Spec.monitorMsg] at ho
    exact ⟨r.jobId, .inl ho⟩
  · by_cases hj : r.jobId = j <;>
      simp [Ev.msgs, failMsg, monMsg, Spec.monitorMsg, Spec.isFinal, hj, keyNotifier, keyMonitor,
        monitorIdentity, List.count_cons]
  · simp [Ev.msgs, Ev.moves, failMsg, monMsg, Spec.monitorMsg, keyNotifier, List.count_cons]

theorem told_stuck (j : String) (r : Req) :
    Told j [.say (monMsg r.jobId "FAILED")] (if r.jobId = j then 1 else 0) := by
  refine ⟨?_, ?_, ?_⟩
  · intro o ho
    simp [Ev.msgs, Spec.toMonitor, monMsg_eq, Spec.monitorMsg] at ho
    exact ⟨r.jobId, .inl ho⟩
  · by_cases hj : r.jobId = j <;>
      simp [Ev.msgs, monMsg, Spec.monitorMsg, Spec.isFinal, hj, keyMonitor,
        monitorIdentity, List.count_cons]
  · simp [Ev.msgs, Ev.moves, monMsg, Spec.monitorMsg, List.count_cons]

theorem told_send (j : String) (w : Worker) (r : Req) :
    Told j [.send w r, .say (monMsg r.jobId "ABORTED")] 0 := by
  refine ⟨?_, ?_, ?_⟩
  · intro o ho
    simp [Ev.msgs, Spec.toMonitor, sendMsg, keyWorkers, monMsg_eq, Spec.monitorMsg] at ho
    exact ⟨r.jobId, .inr ho⟩
  · simp [Ev.msgs, sendMsg, monMsg, Spec.monitorMsg, Spec.isFinal, keyWorkers, keyMonitor,
        monitorIdentity, List.count_cons]
  · by_cases hj : r.jobId = j <;>
      simp [Ev.msgs, Ev.moves, sendMsg, keyWorkers, monMsg, Spec.monitorMsg, hj, keyMonitor,
        monitorIdentity, List.count_cons]

theorem told_park (j : String) (r : Req) :
    Told j [.park r, .say (monMsg r.jobId "ABORTED")] 0 := by
  refine ⟨?_, ?_, ?_⟩
  · intro o ho
    simp [Ev.msgs, Spec.toMonitor, monMsg_eq, Spec.monitorMsg] at ho
    exact ⟨r.jobId, .inr ho⟩
  · simp [Ev.msgs, monMsg, Spec.monitorMsg, Spec.isFinal, keyMonitor,
        monitorIdentity, List.count_cons]
  · by_cases hj : r.jobId = j <;>
      simp [Ev.msgs, Ev.moves, monMsg, Spec.monitorMsg, hj, keyMonitor,
        monitorIdentity, List.count_cons]

theorem SettleScript.told {M : Nat} {fc : Nat → Nat} {reg : Multiset Worker}
    {rs un : List Req} {evs : List Ev} (h : SettleScript M fc reg rs evs un) (j : String) :
    Told j evs (un.countP (fun r => r.jobId = j)) := by
  induction h with
  | nil => exact Told.nil j
  | adopted hc h ih => simpa using (told_giveUp j _ _).append ih
  | exhausted hc hfc h ih => simpa using (told_giveUp j _ _).append ih
  | resent hc hfc h ih => simpa using (told_send j _ _).append ih
  | parked hc hfc h ih => simpa using (told_park j _).append ih
  | stuck hc hfc hh h ih =>
    rename_i r _ _ _
    have := (told_stuck j r).append ih
    simp only [List.singleton_append] at this
    rw [List.countP_cons, Nat.add_comm]
    simpa using this

theorem told_expire (j : String) (w : Worker) (cur : Option Req) (qs : List Req) :
    Told j [.expire w cur qs] 0 := ⟨by simp [Spec.toMonitor, Ev.msgs], rfl, rfl⟩

theorem ExpireScript.told {M : Nat} {fc fc' : Nat → Nat} {reg : Multiset Worker} {w : Worker}
    {evs : List Ev} (h : ExpireScript M fc fc' reg w evs) (j : String) : Told j evs 0 := by
  cases h with
  | @mk cur qs evs un h hfc =>
    have h1 := (told_expire j w cur qs).append (h.told j)
    have hf : (msgsOf (un.map (fun r => Ev.giveUp r (diededMsg w)))).countP (Spec.isFinal j)
        = un.countP (fun r => r.jobId = j) := by
      clear h h1
      induction un with
      | nil => rfl
      | cons r t ih =>
        simp only [List.map_cons, msgsOf_cons, Ev.msgs, List.countP_append, List.countP_cons,
          List.countP_nil, ih]
        by_cases hj : r.jobId = j <;> simp [Spec.isFinal, failMsg, keyNotifier, hj]
        omega
    have hn : ∀ o ∈ msgsOf (un.map (fun r => Ev.giveUp r (diededMsg w))), o.key = "status_notifier" := by
      intro o ho
      simp only [msgsOf, List.mem_flatMap, List.mem_map] at ho
      obtain ⟨e, ⟨r, _, rfl⟩, ho⟩ := ho
      simp [Ev.msgs] at ho
      subst ho; rfl
    have hmv : ((un.map (fun r => Ev.giveUp r (diededMsg w))).map (Ev.moves j)).sum = 0 := by
      refine sum_zero (fun e he => ?_)
      obtain ⟨r, _, rfl⟩ := List.mem_map.1 he
      rfl
    have hc0 : ∀ st, (msgsOf (un.map (fun r => Ev.giveUp r (diededMsg w)))).count
        (Spec.monitorMsg j st) = 0 := by
      intro st
      rw [List.count_eq_zero]
      intro hm
      have := hn _ hm
      simp [Spec.monitorMsg] at this
    simp only [List.singleton_append, Nat.zero_add] at h1
    refine ⟨?_, ?_, ?_⟩
    · intro o ho
      rw [← List.cons_append] at ho
      simp only [msgsOf_append, Spec.toMonitor, List.filter_append, List.mem_append] at ho
      rcases ho with ho | ho
      · exact h1.only o ho
      · rw [List.mem_filter] at ho
        have h2 := hn o ho.1
        rw [h2] at ho
        exact absurd ho.2 (by decide)
    · have := h1.failed
      rw [← List.cons_append]
      simp only [msgsOf_append, List.count_append, List.countP_append, hc0, hf]
      omega
    · have := h1.aborted
      rw [← List.cons_append]
      simp only [msgsOf_append, List.count_append, List.map_append, List.sum_append, hc0, hmv]
      omega

theorem ExpireAll.told {M : Nat} {fc : Nat → Nat} {xs : List Worker} {evs : List Ev}
    (h : ExpireAll M fc xs evs)
    (j : String) : Told j evs 0 := by
  induction h with
  | nil => exact Told.nil j
  | cons h _ ih => simpa using (h.told j).append ih

/-- Every request an expired worker was processing is settled. -/
theorem SettleScript.announced {M : Nat} {fc : Nat → Nat} {reg : Multiset Worker}
    {rs un : List Req} {evs : List Ev} (h : SettleScript M fc reg rs evs un) {r : Req}
    (hr : r ∈ rs) : Spec.monitorMsg r.jobId "FAILED" ∈ msgsOf evs ∨
      Spec.monitorMsg r.jobId "ABORTED" ∈ msgsOf evs := by
  induction h with
  | nil => simp at hr
  | _ =>
    rename_i ih
    rcases List.mem_cons.1 hr with rfl | hr
    · simp [Ev.msgs, monMsg_eq]
    · rcases ih hr with h | h
      · left; simp [h]
      · right; simp [h]

theorem ExpireAll.announced {M : Nat} {fc : Nat → Nat} {xs : List Worker} {evs : List Ev}
    (h : ExpireAll M fc xs evs)
    {w : Worker} {r : Req} {qs : List Req} (he : .expire w (some r) qs ∈ evs) :
    Spec.monitorMsg r.jobId "FAILED" ∈ msgsOf evs ∨
      Spec.monitorMsg r.jobId "ABORTED" ∈ msgsOf evs := by
  induction h with
  | nil => simp at he
  | @cons _ _ _ _ _ a b h _ ih =>
    have key : ∀ {m : Msg}, m ∈ msgsOf a ∨ m ∈ msgsOf b → m ∈ msgsOf (a ++ b) := by
      intro m h; simpa using h
    rcases List.mem_append.1 he with he | he
    · have : Spec.monitorMsg r.jobId "FAILED" ∈ msgsOf a ∨
          Spec.monitorMsg r.jobId "ABORTED" ∈ msgsOf a := by
        cases h with
        | @mk cur qs' evs un h hfc =>
          rcases List.mem_cons.1 he with he' | he'
          · cases he'
            have := h.announced (r := r) (by simp)
            rcases this with h' | h'
            · left; simp [h']
            · right; simp [h']
          · exfalso
            rcases List.mem_append.1 he' with he' | he'
            · clear ih he key
              exact absurd (h.no_expire _ he').1 (by simp [Ev.isExpire])
            · simp at he'
      exact this.imp (fun h => key (.inl h)) (fun h => key (.inl h))
    · exact (ih he).imp (fun h => key (.inr h)) (fun h => key (.inr h))

/-- **C55, timer.** While a timer message is handled, the monitor is only told that jobs failed or
    were aborted; for every job id, the former as often as the frontend is sent a final notification,
    the latter at least as often as the job is sent to a worker. -/
theorem C55_monitor_timer {cfg : HConfig} {env : Env} {h1 h2 : List (Tr Q)} {t : Tr Q}
    {s : HState Q} (hr : Run cfg env (h1 ++ t :: h2) s) (hk : t.msg.key = "timer") :
    (∀ o ∈ Spec.toMonitor t.outs, ∃ j, o = Spec.monitorMsg j "FAILED" ∨
      o = Spec.monitorMsg j "ABORTED") ∧
    ∀ j, t.outs.count (Spec.monitorMsg j "FAILED") = t.outs.countP (Spec.isFinal j) ∧
      t.outs.countP (Spec.isEvalOf j) ≤ t.outs.count (Spec.monitorMsg j "ABORTED") := by
  obtain ⟨hr1, hstep, _⟩ := hr.prefix
  obtain ⟨evs, hi⟩ := step_info hr1.inv.1 hstep
  have hout : t.outs = msgsOf evs := hi.outs
  have hk' : t.msg.key = keyTimer := hk
  have htold : ∀ j, Told j evs 0 := by
    intro j
    cases hi.script with
    | timer _ _ _ h => exact h.script.told j
    | other => exact Told.nil j
    | workerUnknown => exact Told.nil j
    | clientUnknown => exact Told.nil j
    | init hk => rw [hk'] at hk; exact absurd hk (by decide)
    | done hk => rw [hk'] at hk; exact absurd hk (by decide)
    | ping hk => rw [hk'] at hk; exact absurd hk (by decide)
    | progress hk => rw [hk'] at hk; exact absurd hk (by decide)
    | eval hk => rw [hk'] at hk; exact absurd hk (by decide)
    | stats hk => rw [hk'] at hk; exact absurd hk (by decide)
    | freeze hk => rw [hk'] at hk; exact absurd hk (by decide)
    | unfreeze hk => rw [hk'] at hk; exact absurd hk (by decide)
  rw [hout]
  refine ⟨(htold "").only, fun j => ⟨(htold j).failed, ?_⟩⟩
  rw [(htold j).aborted, countP_msgsOf]
  have : ∀ e ∈ evs, e.msgs.countP (Spec.isEvalOf j) ≤ e.moves j := by
    intro e he
    rw [evalOf_count hr1 hi he j]
    cases e with
    | send w r =>
      simp only [Ev.gives, Ev.moves]
      by_cases hj : r.jobId = j
      · simp only [hj, and_true, if_true]; split <;> omega
      · simp [hj]
    | pull w r =>
      exfalso
      have := hi.script.shape _ he
      have h1 : t.msg.key = keyWorkers := this.1
      rw [hk'] at h1
      exact absurd h1 (by decide)
    | _ => simp [Ev.gives]
  clear htold hout hi
  induction evs with
  | nil => simp
  | cons e t ih =>
    simp only [List.map_cons, List.sum_cons]
    have h1 := this e List.mem_cons_self
    have h2 := ih (fun e he => this e (List.mem_cons_of_mem _ he))
    omega

/-- **C55, expired workers.** The monitor is told about the job an expired worker was processing. -/
theorem C55_monitor_expired {cfg : HConfig} {env : Env} {h1 h2 : List (Tr Q)} {t : Tr Q}
    {s : HState Q} (hr : Run cfg env (h1 ++ t :: h2) s) {w : Worker} {r : Req}
    (hw : w ∈ t.pre.workers) (hw' : w ∉ t.post.workers)
    (hc : (currentRequest t.pre.queue w).1 = some r) :
    Spec.monitorMsg r.jobId "FAILED" ∈ t.outs ∨ Spec.monitorMsg r.jobId "ABORTED" ∈ t.outs := by
  obtain ⟨hr1, hstep, _⟩ := hr.prefix
  obtain ⟨evs, hi⟩ := step_info hr1.inv.1 hstep
  have hout : t.outs = msgsOf evs := hi.outs
  have hb := ((LawfulQM.current hr1.inv.1.qinv (hr1.inv.1.mem_reg.1 hw)).2 r).1 hc
  have hnb : (w, r) ∉ (ls t.post 0).busy := by
    intro hm
    exact hw' (hi.inv.mem_reg.2 (busy_reg hi.inv.qinv _ hm))
  have hnr : w ∉ (ls t.post 0).reg := fun h => hw' (hi.inv.mem_reg.2 h)
  -- the worker leaves the registry with some event, and this is the first to touch its request
  have key : ∀ {L L' : LS} {es : List Ev}, LSteps cfg.maxFailures L es L' →
      LInv cfg.maxFailures L → (∀ e ∈ es, TimerEv e) → (w, r) ∈ L.busy → (w, r) ∉ L'.busy →
      ∃ qs, .expire w (some r) qs ∈ es := by
    intro L L' es h
    induction h with
    | nil => intro _ _ h1 h2; exact absurd h1 h2
    | cons h _ ih =>
      rename_i L L1 L2 e es _
      intro hl ht h1 h2
      by_cases h3 : (w, r) ∈ L1.busy
      · obtain ⟨qs, hq⟩ := ih (h.linv cfg.maxFailures_lt hl)
          (fun e he => ht e (List.mem_cons_of_mem _ he)) h3 h2
        exact ⟨qs, List.mem_cons_of_mem _ hq⟩
      · have htev := ht e List.mem_cons_self
        cases h with
        | expire w' cur qs g b q hg hb hq =>
          cases cur with
          | none =>
            have : L.busy = b := by simpa using hb
            rw [this] at h1; exact absurd h1 h3
          | some r' =>
            have hb' : L.busy = (w', r') ::ₘ b := by simpa using hb
            rw [hb'] at h1
            rcases Multiset.mem_cons.1 h1 with h' | h'
            · cases h'; exact ⟨qs, List.mem_cons_self⟩
            · exact absurd h' h3
        | say => exact absurd h1 h3
        | park => exact absurd h1 h3
        | giveUp => exact absurd h1 h3
        | send => exact absurd (Multiset.mem_cons_of_mem h1) h3
        | _ => exact htev.elim
  have hkt : t.msg.key = keyTimer := by
    have hleave : ∀ {L L' : LS} {es : List Ev}, LSteps cfg.maxFailures L es L' → w ∈ L.reg →
        w ∉ L'.reg → ∃ c q, .expire w c q ∈ es := by
      intro L L' es h
      induction h with
      | nil => intro h1 h2; exact absurd h1 h2
      | cons h _ ih =>
        rename_i L L1 L2 e es _
        intro h1 h2
        by_cases h3 : w ∈ L1.reg
        · obtain ⟨c, q, hq⟩ := ih h3 h2
          exact ⟨c, q, List.mem_cons_of_mem _ hq⟩
        · cases h with
          | expire w' cur qs g b q hg hb hq =>
            rw [hg] at h1
            rcases Multiset.mem_cons.1 h1 with h' | h'
            · cases h'; exact ⟨cur, qs, List.mem_cons_self⟩
            · exact absurd h' h3
          | register => exact absurd (Multiset.mem_cons_of_mem h1) h3
          | _ => exact absurd h1 h3
    obtain ⟨c, q, hq⟩ := hleave hi.steps (hr1.inv.1.mem_reg.1 hw) hnr
    exact hi.script.shape _ hq
  cases hi.script with
  | timer _ _ _ h =>
    obtain ⟨qs, hq⟩ := key hi.steps hr1.inv.2 (h.script.shape) hb hnb
    rw [hout]
    exact h.script.announced hq
  | other hk => exact absurd hkt hk.2.2
  | workerUnknown hk => rw [hkt] at hk; exact absurd hk (by decide)
  | clientUnknown hk => rw [hkt] at hk; exact absurd hk (by decide)
  | init hk => rw [hkt] at hk; exact absurd hk (by decide)
  | done hk => rw [hkt] at hk; exact absurd hk (by decide)
  | ping hk => rw [hkt] at hk; exact absurd hk (by decide)
  | progress hk => rw [hkt] at hk; exact absurd hk (by decide)
  | eval hk => rw [hkt] at hk; exact absurd hk (by decide)
  | stats hk => rw [hkt] at hk; exact absurd hk (by decide)
  | freeze hk => rw [hkt] at hk; exact absurd hk (by decide)
  | unfreeze hk => rw [hkt] at hk; exact absurd hk (by decide)

/-- A rejected request, a job passed on by the timer, the same job given up. -/
example : ∃ h s, Run (Q := Single) cfg0 env0 h s ∧
    (Spec.toMonitor (emitted h) == [Spec.monitorMsg "J0" "FAILED", Spec.monitorMsg "J1" "ABORTED",
      Spec.monitorMsg "J1" "FAILED"]) = true :=
  exists_run ([fromC "client" ["eval", "J0", "env=c", "", "x"]] ++ passOnMsgs ++ [tick "1001",
    fromW "w2" ["done", "J1", "INTERNAL_ERROR", "e1"], fromW "w2" ["done", "J1", "INTERNAL_ERROR", "e2"]])
    (fun h _ => Spec.toMonitor (emitted h) == [Spec.monitorMsg "J0" "FAILED",
      Spec.monitorMsg "J1" "ABORTED", Spec.monitorMsg "J1" "FAILED"]) (by decide +kernel)

/-! ## C59 -/

/-- **C59, failed jobs.** A worker reporting that the job it is processing failed: the frontend is
    told once, with the text of the report, the job is dropped, and the only other message is the next
    job for the same worker. -/
theorem C59_failed_report {cfg : HConfig} {env : Env} {h : List (Tr Q)} {s : HState Q} {m : Msg}
    (hr : Run cfg env h s) (hk : m.key = "workers") {w : Worker} {r : Req} {text : String}
    (hd : m.data = ["done", r.jobId, "FAILED", text]) (hp : Spec.Processing m.identity w r s) :
    ∃ s' more, step cfg env m s = .ok () s' ∧ heldJobs s = r.jobId ::ₘ heldJobs s' ∧
      s'.outs = ⟨"status_notifier", "",
        ["type", "job-status", "id", r.jobId, "status", "FAILED", "message", text]⟩ :: more ∧
      more.length ≤ 1 ∧ ∀ o ∈ more, Spec.isEvalTo m.identity o = true := by
  obtain ⟨s', evs, hs, hi, hf, hds⟩ := done_report (cfg := cfg) (env := env) hr.inv.1 hk hd hp
  obtain ⟨hw, hb⟩ := (processing_iff hr.inv.1).1 hp
  have hheld := hi.heldJobs_eq
  have hout := hi.outs
  have hi0 := hi
  clear hi
  cases hds with
  | ok hst => simp at hst
  | adopted hst => simp at hst
  | exhausted hst => simp at hst
  | resent hst => simp at hst
  | parked hst => simp at hst
  | ignored hs' hst => simp at hst
  | @failed t text' hst hrest hn hstats =>
    cases hrest
    refine ⟨s', msgsOf t, hs, ?_, ?_, ?_, ?_⟩
    · rw [← hheld (by
        intro e he
        cases hn with
        | none => simp at he; subst he; rfl
        | pull r' => simp at he; rcases he with rfl | rfl <;> rfl)]
      have : (t.map Ev.leaves).sum = 0 := by cases hn <;> simp [Ev.leaves]
      simp only [List.map_cons, List.sum_cons, Ev.leaves, this,
        add_zero, Multiset.map_singleton]
      rw [add_comm, Multiset.singleton_add]
    · rw [hout]; rfl
    · cases hn <;> simp [msgsOf, Ev.msgs]
    · cases hn with
      | none => simp [msgsOf]
      | pull r' =>
        intro o ho
        simp [msgsOf, Ev.msgs] at ho
        subst ho
        obtain ⟨_, _, g3, _⟩ := hr.gives hi0 (e := .pull w r') (by simp) rfl
        obtain ⟨x, hx⟩ := g3.frames
        simp [Spec.isEvalTo, Spec.isEval, sendMsg, hx, keyWorkers, (regFind_mem hw).2]

/-- **C59, reports the broker does not understand.** A `done` message about the job the worker is
    processing with an unknown status, or a failure report without exactly one text, has no effect
    but the heartbeat; the broker still considers the worker busy. -/
theorem C59_not_understood {cfg : HConfig} {env : Env} {h : List (Tr Q)} {s : HState Q} {m : Msg}
    (hr : Run cfg env h s) (hk : m.key = "workers") {w : Worker} {r : Req} {st : String}
    {rest : List String} (hd : m.data = "done" :: r.jobId :: st :: rest)
    (hp : Spec.Processing m.identity w r s) (hst : Spec.effective st rest = false) :
    ∃ s', step cfg env m s = .ok () s' ∧ Spec.OnlyHeartbeat m.identity s s' ∧ s'.outs = [] := by
  obtain ⟨s', evs, hs, hi, hf, hds⟩ := done_report (cfg := cfg) (env := env) hr.inv.1 hk hd hp
  refine ⟨s', hs, ?_⟩
  have hout := hi.outs
  cases hds with
  | ok h1 => subst h1; simp [Spec.effective] at hst
  | failed h1 h2 => subst h1 h2; simp [Spec.effective] at hst
  | adopted h1 h2 => subst h1 h2; simp [Spec.effective] at hst
  | exhausted h1 h2 => subst h1 h2; simp [Spec.effective] at hst
  | resent h1 h2 => subst h1 h2; simp [Spec.effective] at hst
  | parked h1 h2 => subst h1 h2; simp [Spec.effective] at hst
  | ignored hs' _ =>
    refine ⟨?_, by simpa using hout⟩
    have h3 : ({ ({ s with outs := [] } : HState Q).heard cfg m.identity with outs := [] } : HState Q)
        = ({ s with outs := [] } : HState Q).heard cfg m.identity := by
      unfold HState.heard; split <;> rfl
    rw [hs', ← h3]
    exact onlyHeartbeat_heard hr.inv.1 []

/-- Messages for the checks: two jobs for one worker. -/
def failedMsgs : List Msg :=
  [fromW "w1" ["init", "group", "env=c"], fromC "client" ["eval", "J1", "env=c", "", "x"],
   fromC "client" ["eval", "J2", "env=c", "", "y"]]

/-- A failed job; the worker gets the next one. -/
example : ∃ h1 t h2 s, Run (Q := Single) cfg0 env0 (h1 ++ t :: h2) s ∧ h1.map (·.msg) = failedMsgs ∧
    t.msg = fromW "w1" ["done", "J1", "FAILED", "no such file"] ∧ h2.map (·.msg) = [] ∧
    (inProgress t.pre == [("w1", some "J1")] && t.outs == [⟨"status_notifier", "",
      ["type", "job-status", "id", "J1", "status", "FAILED", "message", "no such file"]⟩,
      ⟨"workers", "w1", ["eval", "J2", "y"]⟩]) = true :=
  exists_split failedMsgs (fromW "w1" ["done", "J1", "FAILED", "no such file"]) [] (fun t _ =>
    inProgress t.pre == [("w1", some "J1")] && t.outs == [⟨"status_notifier", "",
      ["type", "job-status", "id", "J1", "status", "FAILED", "message", "no such file"]⟩,
      ⟨"workers", "w1", ["eval", "J2", "y"]⟩]) (by decide +kernel)

/-- Reports that are not understood. -/
example : Spec.effective "CANCELLED" [] = false ∧ Spec.effective "FAILED" [] = false ∧
    Spec.effective "FAILED" ["a", "b"] = false ∧ Spec.effective "INTERNAL_ERROR" [] = false := by decide

end Broker
