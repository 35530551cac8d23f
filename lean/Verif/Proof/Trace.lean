import Verif.Proof.RefineStep
import Verif.Proof.LifeInv
import Verif.Proof.Frames

/-! # Histories and events -/

set_option linter.unusedSectionVars false
set_option linter.unusedSimpArgs false

namespace Broker

open QueueManager LawfulQM

variable {Q : Type} [QueueManager Q] [LawfulQM Q]

/-- What is known about a normal step. -/
structure StepInfo (cfg : HConfig) (env : Env) (m : Msg) (s s' : HState Q) (evs : List Ev) :
    Prop where
  inv : HInv s'
  steps : LSteps cfg.maxFailures (ls s 0) evs (ls s' 0)
  outs : s'.outs = msgsOf evs
  script : Script cfg env m { s with outs := [] } s' evs

theorem step_info {cfg : HConfig} {env : Env} {m : Msg} {s s' : HState Q} (h : HInv s)
    (hs : step cfg env m s = .ok () s') : ∃ evs, StepInfo cfg env m s s' evs := by
  have h0 : HInv ({ s with outs := [] } : HState Q) := h.of_eq rfl rfl
  obtain ⟨evs, hsim, hscr⟩ := wp_ok (wp_onRequest (cfg := cfg) (env := env) (m := m) h0) hs
  exact ⟨evs, hsim.inv, hsim.steps, by simpa using hsim.outs, hscr⟩

theorem step_err {cfg : HConfig} {env : Env} {m : Msg} {s s' : HState Q} {e : Err} (h : HInv s)
    (hs : step cfg env m s = .error e s') : StepErr cfg env m { s with outs := [] } e := by
  have h0 : HInv ({ s with outs := [] } : HState Q) := h.of_eq rfl rfl
  exact wp_err (wp_onRequest (cfg := cfg) (env := env) (m := m) h0) hs

theorem HInv.init : HInv (HState.init Q) :=
  ⟨inv_empty, by simp [HState.init, reg_empty], by simp [HState.init, busy_empty]⟩

theorem ls_init_held : (ls (HState.init Q) 0).held = 0 := by
  simp [ls, LS.held, HState.init, busy_empty, que_empty]

theorem Run.inv {cfg : HConfig} {env : Env} {h : List (Tr Q)} {s : HState Q}
    (hr : Run cfg env h s) : HInv s ∧ LInv cfg.maxFailures (ls s 0) := by
  induction hr with
  | nil => exact ⟨HInv.init, LInv.init _ _ ls_init_held⟩
  | snoc hr hs ih =>
    obtain ⟨evs, hi⟩ := step_info ih.1 hs
    exact ⟨hi.inv, hi.steps.linv cfg.maxFailures_lt ih.2⟩

/-- Induction over histories with everything known about the last step. -/
theorem Run.induct {cfg : HConfig} {env : Env} {P : List (Tr Q) → HState Q → Prop}
    (h0 : P [] (HState.init Q))
    (hstep : ∀ h s m s' evs, Run cfg env h s → HInv s → LInv cfg.maxFailures (ls s 0) → P h s →
      step cfg env m s = .ok () s' → StepInfo cfg env m s s' evs → P (h ++ [⟨s, m, s'⟩]) s')
    {h : List (Tr Q)} {s : HState Q} (hr : Run cfg env h s) : P h s := by
  induction hr with
  | nil => exact h0
  | snoc hr hs ih =>
    obtain ⟨evs, hi⟩ := step_info hr.inv.1 hs
    exact hstep _ _ _ _ evs hr hr.inv.1 hr.inv.2 ih hs hi

/-- Every transition of a history starts and ends in states with the invariant. -/
theorem Run.mem_step {cfg : HConfig} {env : Env} {h : List (Tr Q)} {s : HState Q}
    (hr : Run cfg env h s) {t : Tr Q} (ht : t ∈ h) :
    (∃ h', Run cfg env h' t.pre) ∧ step cfg env t.msg t.pre = .ok () t.post := by
  induction hr with
  | nil => simp at ht
  | snoc hr hs ih =>
    rcases List.mem_append.1 ht with ht | ht
    · exact ih ht
    · have := List.mem_singleton.1 ht
      subst this
      exact ⟨⟨_, hr⟩, hs⟩

/-! ## Shapes of events -/

/-- A message for the monitor. -/
def ToMonitor (m : Msg) : Prop := m.key = keyMonitor ∧ m.identity = monitorIdentity

theorem toMonitor_mon (j t : String) : ToMonitor (monMsg j t) := ⟨rfl, rfl⟩

/-- Events of a timer message. -/
def TimerEv : Ev → Prop
  | .say m => ToMonitor m
  | .send _ _ => True
  | .park _ => True
  | .expire _ _ _ => True
  | .giveUp _ _ => True
  | _ => False

theorem SettleScript.shape {M : Nat} {fc : Nat → Nat} {reg : Multiset Worker}
    {rs un : List Req} {evs : List Ev} (h : SettleScript M fc reg rs evs un) :
    ∀ e ∈ evs, TimerEv e := by
  induction h <;> simp_all [TimerEv, toMonitor_mon]

theorem ExpireAll.shape {M : Nat} {fc : Nat → Nat} {xs : List Worker} {evs : List Ev}
    (h : ExpireAll M fc xs evs) :
    ∀ e ∈ evs, TimerEv e := by
  induction h with
  | nil => simp
  | cons h _ ih =>
    intro e he
    rcases List.mem_append.1 he with he | he
    · cases h with
      | mk hs hfc =>
        rcases List.mem_cons.1 he with rfl | he
        · exact trivial
        · rcases List.mem_append.1 he with he | he
          · exact hs.shape e he
          · obtain ⟨r, _, rfl⟩ := List.mem_map.1 he
            exact trivial
    · exact ih e he

/-- Events of a `done` message about request `r` of worker `w`. -/
def DoneEv (w : Worker) (r : Req) : Ev → Prop
  | .say m => ToMonitor m
  | .send _ r' => r' = r
  | .park r' => r' = r
  | .pull w' _ => w' = w
  | .done w' r' => w' = w ∧ r' = r
  | .failed w' r' _ => w' = w ∧ r' = r
  | .cancel w' r' => w' = w ∧ r' = r
  | .giveUp r' _ => r' = r
  | _ => False

theorem Next.shape {w : Worker} {r : Req} {evs : List Ev} (h : Next w evs) :
    ∀ e ∈ evs, DoneEv w r e := by
  cases h <;> simp [DoneEv]

theorem DoneScript.shape {M : Nat} {s s' : HState Q} {w : Worker} {r : Req} {status : String}
    {rest : List String} {evs : List Ev} (h : DoneScript M s s' w r status rest evs) :
    ∀ e ∈ evs, DoneEv w r e := by
  cases h with
  | ok _ ht _ => simpa [DoneEv] using ht.shape
  | failed _ _ ht _ => simpa [DoneEv] using ht.shape
  | exhausted _ _ _ _ ht _ => simpa [DoneEv, toMonitor_mon] using ht.shape
  | _ => simp [DoneEv]

/-- Messages the broker says outside the life cycle of requests. -/
inductive SayShape (inp : Msg) (m : Msg) : Prop
  | client (hk : inp.key = keyClients) (hm : m.key = keyClients) (hi : m.identity = inp.identity)
  | monitor (h : ToMonitor m)
  | worker (hk : inp.key = keyWorkers) (hm : m.key = keyWorkers) (hi : m.identity = inp.identity)
      (hc : inp.data.head? = some "ping") (hd : m.data = ["pong"] ∨ m.data = ["intro"])
  | error (hk : inp.key = keyWorkers) (hm : m.key = keyNotifier) (hi : m.identity = "")
      (hd : ∃ text, m.data = ["type", "error", "message", text])

/-- Which events a message may cause. -/
def EvShape (inp : Msg) : Ev → Prop
  | .say m => SayShape inp m
  | .drop => inp.key = keyClients
  | .accept _ => inp.key = keyClients
  | .register w _ => inp.key = keyWorkers ∧ w.identity = inp.identity
  | .resend w _ => inp.key = keyWorkers ∧ w.identity = inp.identity ∧ inp.data.head? = some "init"
  | .pull w _ => inp.key = keyWorkers ∧ w.identity = inp.identity
  | .done w _ => inp.key = keyWorkers ∧ w.identity = inp.identity
  | .failed w _ _ => inp.key = keyWorkers ∧ w.identity = inp.identity
  | .cancel w _ => inp.key = keyWorkers ∧ w.identity = inp.identity
  | .expire _ _ _ => inp.key = keyTimer
  | .send _ _ => True
  | .park _ => True
  | .giveUp _ _ => inp.key = keyWorkers ∨ inp.key = keyTimer

theorem RegScript.shape {w : Worker} {cur : Option Req} {evs : List Ev} (h : RegScript w cur evs)
    {inp : Msg} (hk : inp.key = keyWorkers) (hi : w.identity = inp.identity)
    (hc : inp.data.head? = some "init") : ∀ e ∈ evs, EvShape inp e := by
  cases h <;> simp [EvShape, hk, hi, hc]

theorem Script.shape {cfg : HConfig} {env : Env} {m : Msg} {s0 s' : HState Q} {evs : List Ev}
    (h : Script cfg env m s0 s' evs) : ∀ e ∈ evs, EvShape m e := by
  cases h with
  | init hk hd h =>
    cases h with
    | short => simp
    | same => simp
    | fresh hm hw hn hf hr =>
      exact hr.shape hk (Worker.create_fields hn.created).2.1 (by rw [hd]; rfl)
    | again hm hw hne hn hf hr =>
      intro e he
      rcases List.mem_cons.1 he with rfl | he
      · exact .error hk rfl rfl ⟨_, rfl⟩
      · exact hr.shape hk (Worker.create_fields hn.created).2.1 (by rw [hd]; rfl) e he
  | done hk hd h =>
    cases h with
    | unknown => simp
    | short => simp
    | stale => simp
    | report hw hm hb hj hf hd =>
      intro e he
      have hsh := hd.shape e he
      have hi := (regFind_mem hw).2
      cases e <;> simp_all [DoneEv, EvShape]
      exact .monitor hsh
  | ping hk hd h =>
    intro e he
    have := List.mem_singleton.1 he
    subst this
    refine .worker hk rfl rfl (by rw [hd]; rfl) ?_
    by_cases hf : (regFind m.identity s0.workers).isSome <;> simp [hf]
  | progress hk hd h =>
    intro e he
    have := List.mem_singleton.1 he
    subst this
    exact .monitor ⟨rfl, rfl⟩
  | workerUnknown => simp
  | eval hk hd hf h =>
    intro e he
    cases h with
    | malformed =>
      have := List.mem_singleton.1 he
      subst this; exact .client hk rfl rfl
    | frozen =>
      simp only [List.mem_cons, List.not_mem_nil, or_false] at he
      rcases he with rfl | rfl <;> exact .client hk rfl rfl
    | submit _ _ _ h =>
      rcases List.mem_cons.1 he with rfl | he
      · exact .client hk rfl rfl
      · cases h with
        | reject =>
          simp only [List.mem_cons, List.not_mem_nil, or_false] at he
          rcases he with rfl | rfl | rfl
          · exact hk
          · exact .client hk rfl rfl
          · exact .monitor ⟨rfl, rfl⟩
        | give w =>
          simp only [List.mem_cons, List.not_mem_nil, or_false] at he
          rcases he with rfl | rfl | rfl
          · exact hk
          · exact trivial
          · exact .client hk rfl rfl
        | wait =>
          simp only [List.mem_cons, List.not_mem_nil, or_false] at he
          rcases he with rfl | rfl | rfl
          · exact hk
          · exact trivial
          · exact .client hk rfl rfl
  | stats hk =>
    intro e he
    have := List.mem_singleton.1 he
    subst this; exact .client hk rfl rfl
  | freeze hk =>
    intro e he
    have := List.mem_singleton.1 he
    subst this; exact .client hk rfl rfl
  | unfreeze hk =>
    intro e he
    have := List.mem_singleton.1 he
    subst this; exact .client hk rfl rfl
  | clientUnknown => simp
  | timer hk hd ht h =>
    intro e he
    have hsh := h.script.shape e he
    cases e <;> simp_all [TimerEv, EvShape]
    exact .monitor hsh
  | other => simp

/-! ## Counting -/

theorem countP_msgsOf (p : Msg → Bool) (evs : List Ev) :
    (msgsOf evs).countP p = (evs.map (fun e => e.msgs.countP p)).sum := by
  induction evs with
  | nil => rfl
  | cons e t ih => simp [ih]

theorem sum_map_congr {α : Type} {l : List α} {f g : α → Nat} (h : ∀ x ∈ l, f x = g x) :
    (l.map f).sum = (l.map g).sum := by
  rw [List.map_congr_left h]

theorem countP_one {α : Type} (p : α → Prop) [DecidablePred p] (a : α) :
    Multiset.countP p {a} = if p a then 1 else 0 := by
  rw [← Multiset.cons_zero, Multiset.countP_cons, Multiset.countP_zero, Nat.zero_add]

/-- Final notifications are the messages of requests leaving. -/
theorem final_msgs {inp : Msg} {e : Ev} (h : EvShape inp e) (j : String) :
    e.msgs.countP (Spec.isFinal j) = e.leaves.countP (fun r => r.jobId = j) := by
  cases e with
  | say m =>
    simp only [Ev.msgs, Ev.leaves, Multiset.countP_zero, List.countP_singleton]
    have : Spec.isFinal j m = false := by
      cases h with
      | client hk hm hi => simp [Spec.isFinal, hm, keyClients]
      | monitor h => simp [Spec.isFinal, h.1, keyMonitor]
      | worker hk hm hi hc hd => simp [Spec.isFinal, hm, keyWorkers]
      | error hk hm hi hd =>
        obtain ⟨t, ht⟩ := hd
        simp [Spec.isFinal, hm, ht]
    rw [this]; rfl
  | drop => rfl
  | accept r => rfl
  | register w c => rfl
  | send w r => simp [Ev.msgs, Ev.leaves, Spec.isFinal, sendMsg, keyWorkers]
  | park r => rfl
  | pull w r => simp [Ev.msgs, Ev.leaves, Spec.isFinal, sendMsg, keyWorkers]
  | resend w r => simp [Ev.msgs, Ev.leaves, Spec.isFinal, sendMsg, keyWorkers]
  | done w r =>
    by_cases hj : r.jobId = j <;>
      simp [Ev.msgs, Ev.leaves, Spec.isFinal, okMsg, keyNotifier, hj, countP_one]
  | failed w r t =>
    by_cases hj : r.jobId = j <;>
      simp [Ev.msgs, Ev.leaves, Spec.isFinal, failMsg, keyNotifier, hj, countP_one]
  | cancel w r => rfl
  | expire w c q => rfl
  | giveUp r t =>
    by_cases hj : r.jobId = j <;>
      simp [Ev.msgs, Ev.leaves, Spec.isFinal, failMsg, keyNotifier, hj, countP_one]

end Broker
