import Verif.Proof.Trace

/-! # Requests entering the broker, seen in messages -/

set_option linter.unusedSectionVars false
set_option linter.unusedSimpArgs false

namespace Broker

open QueueManager LawfulQM

variable {Q : Type} [QueueManager Q] [LawfulQM Q]

/-- Total number of requests for job `j` entering. -/
def entering (j : String) (evs : List Ev) : Nat :=
  (evs.map (fun e => e.enters.countP (fun r => r.jobId = j))).sum

theorem entering_zero {evs : List Ev} (j : String) (h : ∀ e ∈ evs, e.enters = 0) :
    entering j evs = 0 := by
  unfold entering
  rw [sum_map_congr (g := fun _ => 0)]
  · induction evs <;> simp_all
  · intro e he; simp [h e he]

theorem TimerEv.enters {e : Ev} (h : TimerEv e) : e.enters = 0 := by
  cases e <;> simp_all [TimerEv, Ev.enters]

theorem DoneEv.enters {w : Worker} {r : Req} {e : Ev} (h : DoneEv w r e) : e.enters = 0 := by
  cases e <;> simp_all [DoneEv, Ev.enters]

theorem adopts_false {t : Tr Q} {j : String} (h : t.post.workers.length ≤ t.pre.workers.length) :
    Spec.adopts j t = false := by
  have : ¬ t.pre.workers.length < t.post.workers.length := by omega
  simp [Spec.adopts, this]

theorem accepts_false_key {t : Tr Q} {j : String} (h : t.msg.key ≠ keyClients) :
    Spec.accepts j t = false := by
  have : (t.msg.key == "clients") = false := by simpa [keyClients] using h
  simp [Spec.accepts, this]

theorem adopts_false_key {t : Tr Q} {j : String} (h : t.msg.key ≠ keyWorkers) :
    Spec.adopts j t = false := by
  have : (t.msg.key == "workers") = false := by simpa [keyWorkers] using h
  simp [Spec.adopts, this]

theorem heard_workers (cfg : HConfig) (i : String) (s : HState Q) :
    (s.heard cfg i).workers = s.workers := by
  rw [heard_frame cfg i s]

theorem keys_ne : keyWorkers ≠ keyClients ∧ keyTimer ≠ keyClients ∧ keyTimer ≠ keyWorkers := by
  decide

theorem RegScript.entering {w : Worker} {cur : Option Req} {evs : List Ev}
    (h : RegScript w cur evs) (j : String) :
    Broker.entering j evs = if cur.map (·.jobId) = some j then 1 else 0 := by
  have key : (Ev.register w cur).enters.countP (fun r => r.jobId = j)
      = if cur.map (·.jobId) = some j then 1 else 0 := by
    cases cur with
    | none => simp [Ev.enters]
    | some r => simp [Ev.enters, countP_one]
  cases h with
  | plain => simp [Broker.entering, key]
  | pull r hc =>
    simp only [Broker.entering, List.map_cons, key, List.map_nil, List.sum_cons, List.sum_nil]
    simp [Ev.enters]
  | resend r hc =>
    simp only [Broker.entering, List.map_cons, key, List.map_nil, List.sum_cons, List.sum_nil]
    simp [Ev.enters]

theorem entering_eq {cfg : HConfig} {env : Env} {m : Msg} {s s' : HState Q} {evs : List Ev}
    (hi : StepInfo cfg env m s s' evs) (j : String) :
    entering j evs = (if Spec.accepts j ⟨s, m, s'⟩ then 1 else 0)
      + (if Spec.adopts j ⟨s, m, s'⟩ then 1 else 0) := by
  have houts := hi.outs
  cases hi.script with
  | init hk hd h =>
    rw [accepts_false_key (t := ⟨s, m, s'⟩) (by rw [hk]; exact keys_ne.1)]
    cases h with
    | short h hfr =>
      rw [adopts_false (t := ⟨s, m, s'⟩) (by show s'.workers.length ≤ _; rw [hfr, heard_workers])]
      rfl
    | same hfr hm hw he =>
      rw [adopts_false (t := ⟨s, m, s'⟩) (by show s'.workers.length ≤ _; rw [hfr, heard_workers])]
      rfl
    | fresh hm hw hn hf hr =>
      rw [hr.entering]
      have hlen : s.workers.length < s'.workers.length := by
        rw [hf.workers, heard_workers]; simp
      have : Spec.adopts j ⟨s, m, s'⟩ = (Spec.currentJob m.data == some j) := by
        simp [Spec.adopts, hk, hd, keyWorkers, hlen]
      rw [this, hm, currentJob_eq, hn.cur_eq]
      simp [Option.map_map, Function.comp_def, Req.incomplete]
    | again hm hw hne hn hf hr =>
      have he := hr.entering j
      have hlen : s.workers.length < s'.workers.length := by
        rw [hf.workers, heard_workers]; simp
      have : Spec.adopts j ⟨s, m, s'⟩ = (Spec.currentJob m.data == some j) := by
        simp [Spec.adopts, hk, hd, keyWorkers, hlen]
      rw [this, hm, currentJob_eq]
      rw [hn.cur_eq] at he
      unfold entering at he ⊢
      rw [List.map_cons, List.sum_cons, he]
      simp [Option.map_map, Function.comp_def, Req.incomplete, Ev.enters]
  | done hk hd h =>
    rw [accepts_false_key (t := ⟨s, m, s'⟩) (by rw [hk]; exact keys_ne.1)]
    have hw : s'.workers = s.workers := by
      cases h with
      | unknown h hs => rw [hs, heard_workers]
      | short h hs => rw [hs, heard_workers]
      | stale hw hm hb hj hs => rw [hs, heard_workers]
      | report hw hm hb hj hf hd => rw [hf.workers, heard_workers]
    rw [adopts_false (t := ⟨s, m, s'⟩) (by show s'.workers.length ≤ _; rw [hw])]
    refine entering_zero j ?_
    cases h with
    | unknown h hs => simp
    | short h hs => simp
    | stale hw hm hb hj hs => simp
    | report hw hm hb hj hf hd => exact fun e he => (hd.shape e he).enters
  | ping hk hd h =>
    rw [accepts_false_key (t := ⟨s, m, s'⟩) (by rw [hk]; exact keys_ne.1),
      adopts_false (t := ⟨s, m, s'⟩) (by
        show s'.workers.length ≤ s.workers.length; rw [h]
        show (HState.heard _ _ _).workers.length ≤ _
        rw [heard_workers])]
    rfl
  | progress hk hd h =>
    rw [accepts_false_key (t := ⟨s, m, s'⟩) (by rw [hk]; exact keys_ne.1),
      adopts_false (t := ⟨s, m, s'⟩) (by
        show s'.workers.length ≤ s.workers.length; rw [h]
        show (HState.heard _ _ _).workers.length ≤ _
        rw [heard_workers])]
    rfl
  | workerUnknown hk hd hc h =>
    rw [accepts_false_key (t := ⟨s, m, s'⟩) (by rw [hk]; exact keys_ne.1),
      adopts_false (t := ⟨s, m, s'⟩) (by
        show s'.workers.length ≤ s.workers.length; rw [h, heard_workers])]
    rfl
  | eval hk hd hf h =>
    rw [adopts_false_key (t := ⟨s, m, s'⟩) (by rw [hk]; exact keys_ne.1.symm)]
    have hacc : Spec.accepts j ⟨s, m, s'⟩ = (m.data.take 2 == ["eval", j] &&
        (msgsOf evs).contains ⟨keyClients, m.identity, ["accept"]⟩) := by
      simp only [Spec.accepts, Tr.outs, houts, hk, keyClients]
      simp [keyClients]
    rw [hacc]
    cases h with
    | malformed => simp [entering, Ev.enters, Ev.msgs]
    | frozen => simp [entering, Ev.enters, Ev.msgs]
    | submit hf hm hp h =>
      rename_i j' rest hs md extra evs'
      have htake : m.data.take 2 = ["eval", j'] := by rw [hm]; rfl
      rw [htake]
      cases h with
      | reject => simp [entering, Ev.enters, Ev.msgs, monMsg, keyMonitor, keyClients]
      | give w =>
        by_cases hj : j' = j <;>
          simp [entering, Ev.enters, Ev.msgs, sendMsg, Req.full, countP_one, hj]
      | wait =>
        by_cases hj : j' = j <;>
          simp [entering, Ev.enters, Ev.msgs, sendMsg, Req.full, countP_one, hj]
  | stats hk hd h =>
    rw [adopts_false_key (t := ⟨s, m, s'⟩) (by rw [hk]; exact keys_ne.1.symm)]
    simp [Spec.accepts, hd, entering, Ev.enters]
  | freeze hk hd h =>
    rw [adopts_false_key (t := ⟨s, m, s'⟩) (by rw [hk]; exact keys_ne.1.symm)]
    simp [Spec.accepts, hd, entering, Ev.enters]
  | unfreeze hk hd h =>
    rw [adopts_false_key (t := ⟨s, m, s'⟩) (by rw [hk]; exact keys_ne.1.symm)]
    simp [Spec.accepts, hd, entering, Ev.enters]
  | clientUnknown hk hd hc h =>
    rw [adopts_false_key (t := ⟨s, m, s'⟩) (by rw [hk]; exact keys_ne.1.symm)]
    simp [Spec.accepts, hd, entering, Ev.enters, hc.1]
  | timer hk hd ht h =>
    rw [accepts_false_key (t := ⟨s, m, s'⟩) (by rw [hk]; exact keys_ne.2.1),
      adopts_false_key (t := ⟨s, m, s'⟩) (by rw [hk]; exact keys_ne.2.2)]
    exact entering_zero j (fun e he => (h.script.shape e he).enters)
  | other hk h =>
    rw [accepts_false_key (t := ⟨s, m, s'⟩) hk.2.1, adopts_false_key (t := ⟨s, m, s'⟩) hk.1]
    rfl

end Broker
