import Verif.Proof.Provenance
import Verif.Proof.Potential

/-! # Evaluation messages and the events behind them -/

set_option linter.unusedSectionVars false
set_option linter.unusedSimpArgs false

namespace Broker

open QueueManager LawfulQM

variable {Q : Type} [QueueManager Q] [LawfulQM Q]

/-- The event gives a request to a worker. -/
def Ev.gives : Ev → Option (Worker × Req)
  | .send w r => some (w, r)
  | .pull w r => some (w, r)
  | _ => none

/-- Requests given to workers are complete requests of a capable registered worker. -/
theorem LStep.gives {M : Nat} {L L' : LS} {e : Ev} (h : LStep M L e L') (hi : LInv M L)
    {w : Worker} {r : Req} (hg : e.gives = some (w, r)) :
    r ∈ L.held ∧ r.complete = true ∧ w ∈ L.reg ∧ w.Can r.headers := by
  cases h with
  | send w' r' hnd hh hw hidle hcan hcomp hal =>
    simp only [Ev.gives, Option.some.injEq, Prod.mk.injEq] at hg
    obtain ⟨rfl, rfl⟩ := hg
    exact ⟨LS.mem_held.2 (Or.inr (Or.inr (by rw [hh]; simp))), hcomp, hw, hcan⟩
  | pull w' r' q hq hw hidle hcan =>
    simp only [Ev.gives, Option.some.injEq, Prod.mk.injEq] at hg
    obtain ⟨rfl, rfl⟩ := hg
    have : r' ∈ L.que := by rw [hq]; simp
    exact ⟨LS.mem_held.2 (Or.inr (Or.inl this)), hi.queC _ this, hw, hcan⟩
  | _ => simp [Ev.gives] at hg

/-- What is known about a request given to a worker during a step. -/
theorem Run.gives {cfg : HConfig} {env : Env} {h : List (Tr Q)} {m : Msg} {s s' : HState Q}
    {evs : List Ev} (hr : Run cfg env h s) (hi : StepInfo cfg env m s s' evs) {e : Ev} (he : e ∈ evs)
    {w : Worker} {r : Req} (hg : e.gives = some (w, r)) :
    r.complete = true ∧ w.Can r.headers ∧ ReqProv (h ++ [⟨s, m, s'⟩]) r ∧
      WProv (h ++ [⟨s, m, s'⟩]) w ∧ (w ∈ s.workers ∨ w ∈ s'.workers) := by
  obtain ⟨L1, L2, hs, hl, h1, h2, _⟩ := hr.step_prov hi e he
  obtain ⟨g1, g2, g3, g4⟩ := hs.gives hl hg
  exact ⟨g2, g4, h1 r g1 g2, (h2 w g3).1, (h2 w g3).2⟩

theorem ReqProv.frames {h : List (Tr Q)} {r : Req} (hp : ReqProv h r) :
    ∃ extra, r.frames = "eval" :: r.jobId :: extra := by
  obtain ⟨t, _, rest, hs, md, extra, hf⟩ := hp
  exact ⟨extra, by rw [hf.eq]; rfl⟩

/-- Events that are no giving send no evaluation message. -/
theorem eval_msgs_none {inp : Msg} {e : Ev} (h : EvShape inp e) (hg : e.gives = none) {m : Msg}
    (hm : m ∈ e.msgs) (hres : ∀ w r, e = .resend w r → r.frames = []) : Spec.isEval m = false := by
  cases e with
  | say m' =>
    simp only [Ev.msgs, List.mem_singleton] at hm
    subst hm
    cases h with
    | client hk hm hi => simp [Spec.isEval, hm, keyClients]
    | monitor h => simp [Spec.isEval, h.1, keyMonitor]
    | worker hk hm hi hc hd => rcases hd with hd | hd <;> simp [Spec.isEval, hd]
    | error hk hm hi hd => simp [Spec.isEval, hm, keyNotifier]
  | resend w r =>
    simp only [Ev.msgs, List.mem_singleton] at hm
    subst hm
    simp [Spec.isEval, sendMsg, hres w r rfl]
  | send w r => simp [Ev.gives] at hg
  | pull w r => simp [Ev.gives] at hg
  | done w r =>
    simp only [Ev.msgs, List.mem_singleton] at hm
    subst hm
    simp [Spec.isEval, okMsg, keyNotifier]
  | failed w r t =>
    simp only [Ev.msgs, List.mem_singleton] at hm
    subst hm
    simp [Spec.isEval, failMsg, keyNotifier]
  | giveUp r t =>
    simp only [Ev.msgs, List.mem_singleton] at hm
    subst hm
    simp [Spec.isEval, failMsg, keyNotifier]
  | _ => simp [Ev.msgs] at hm

theorem LSteps.resend_frames {M : Nat} {L L' : LS} {evs : List Ev} (h : LSteps M L evs L')
    {w : Worker} {r : Req} (he : Ev.resend w r ∈ evs) : r.frames = [] := by
  obtain ⟨a, b, rfl⟩ := List.append_of_mem he
  obtain ⟨L1, _, h2⟩ := h.append_inv
  cases h2 with
  | cons h3 _ => cases h3 with
    | resend w r hb hc hf => exact hf

/-- Every evaluation message of a step belongs to an event giving a request to a worker. -/
theorem StepInfo.eval_ev {cfg : HConfig} {env : Env} {m : Msg} {s s' : HState Q} {evs : List Ev}
    (hi : StepInfo cfg env m s s' evs) {o : Msg} (ho : o ∈ s'.outs) (he : Spec.isEval o = true) :
    ∃ e ∈ evs, ∃ w r, e.gives = some (w, r) ∧ o = sendMsg w r := by
  rw [hi.outs, msgsOf, List.mem_flatMap] at ho
  obtain ⟨e, hm, hoe⟩ := ho
  cases hg : e.gives with
  | none =>
    rw [eval_msgs_none (hi.script.shape e hm) hg hoe
      (fun w r h => hi.steps.resend_frames (by rw [← h]; exact hm))] at he
    cases he
  | some p =>
    refine ⟨e, hm, p.1, p.2, hg, ?_⟩
    cases e <;> simp_all [Ev.gives, Ev.msgs] <;> (subst hg; rfl)

/-- Evaluation messages of an event of a history. -/
theorem evalOf_count {cfg : HConfig} {env : Env} {h : List (Tr Q)} {m : Msg} {s s' : HState Q}
    {evs : List Ev} (hr : Run cfg env h s) (hi : StepInfo cfg env m s s' evs) {e : Ev}
    (he : e ∈ evs) (j : String) :
    e.msgs.countP (Spec.isEvalOf j) =
      match e.gives with
      | some (_, r) => if r.complete = true ∧ r.jobId = j then 1 else 0
      | none => 0 := by
  cases hg : e.gives with
  | none =>
    rw [List.countP_eq_zero]
    intro o ho hc
    have := eval_msgs_none (hi.script.shape e he) hg ho
      (fun w r h => hi.steps.resend_frames (by rw [← h]; exact he))
    simp only [Spec.isEval, Spec.isEvalOf, Bool.and_eq_true, beq_iff_eq] at this hc
    rw [hc.1] at this
    cases hd : o.data with
    | nil => rw [hd] at hc; simp at hc
    | cons a t => rw [hd] at hc this; simp at hc this; exact this hc.2.1
  | some p =>
    obtain ⟨w, r⟩ := p
    obtain ⟨g1, _, g3, _⟩ := hr.gives hi he hg
    obtain ⟨x, hx⟩ := g3.frames
    have hms : e.msgs = [sendMsg w r] := by
      cases e <;> simp_all [Ev.gives, Ev.msgs]
    rw [hms]
    by_cases hj : r.jobId = j <;>
      simp [sendMsg, Spec.isEvalOf, keyWorkers, hx, hj, g1]

/-! ## Potential for the number of dispatches -/

/-- Dispatches of job `j` still possible. -/
def dispatchW (M : Nat) (j : String) : Weights where
  b n r := if r.complete = true ∧ r.jobId = j then max 1 M - n - 1 else 0
  q n r := if r.complete = true ∧ r.jobId = j then max 1 M - n else 0
  h n r := if r.complete = true ∧ r.jobId = j then max 1 M - n else 0

/-- One dispatch of job `j`. -/
def dispatchCost (j : String) (e : Ev) : Nat :=
  match e.gives with
  | some (_, r) => if r.complete = true ∧ r.jobId = j then 1 else 0
  | none => 0

/-- Acceptance of job `j`. -/
def dispatchGain (M : Nat) (j : String) : Ev → Nat
  | .accept r => if r.jobId = j then max 1 M else 0
  | _ => 0

theorem dispatchLaws {M : Nat} (hM : M < SZ) (j : String) :
    WLaws M (dispatchW M j) (dispatchCost j) (dispatchGain M j) where
  say _ := Nat.le_refl _
  drop := Nat.le_refl _
  accept r hc := by simp [dispatchW, dispatchCost, dispatchGain, Ev.gives, hc]
  register0 _ := Nat.le_refl _
  register w r hc := by simp [dispatchW, dispatchCost, dispatchGain, Ev.gives, hc]
  send w r n hc hn := by
    simp only [dispatchW, dispatchCost, dispatchGain, Ev.gives]
    split
    · omega
    · omega
  park r n hc hn := by
    simp only [dispatchW, dispatchCost, dispatchGain, Ev.gives]
    split <;> omega
  pull w r n hc hn := by
    simp only [dispatchW, dispatchCost, dispatchGain, Ev.gives]
    split
    · omega
    · omega
  resend _ _ _ _ := Nat.le_refl _
  done w r n hn := by simp [dispatchCost, dispatchGain, Ev.gives]
  failed w r t n hn := by simp [dispatchCost, dispatchGain, Ev.gives]
  cancel w r n hn := by
    simp only [dispatchW, dispatchCost, dispatchGain, Ev.gives]
    split
    · rename_i hc
      have := szInc_le_max hM (hn hc.1)
      rw [this.1]; omega
    · omega
  expireCur r n hn := by
    simp only [dispatchW]
    split
    · rename_i hc
      have := szInc_le_max hM (hn hc.1)
      rw [this.1]; omega
    · omega
  expireQue r n hc hn := by
    simp only [dispatchW]
    split <;> omega
  expire _ _ _ := Nat.le_refl _
  giveUp _ _ _ _ := by simp [dispatchCost, dispatchGain, Ev.gives]

/-- Gains of a step: at most one acceptance. -/
theorem accept_gain {cfg : HConfig} {env : Env} {m : Msg} {s s' : HState Q} {evs : List Ev}
    (hi : StepInfo cfg env m s s' evs) (M : Nat) (j : String) :
    (evs.map (dispatchGain M j)).sum
      = if Spec.accepts j ⟨s, m, s'⟩ = true then max 1 M else 0 := by
  by_cases hk : m.key = keyClients
  · -- all requests entering are accepted ones
    have h1 : ∀ e ∈ evs, dispatchGain M j e = e.enters.countP (fun r => r.jobId = j) * max 1 M := by
      intro e he
      have hsh := hi.script.shape e he
      cases e with
      | accept r => by_cases hj : r.jobId = j <;> simp [dispatchGain, Ev.enters, countP_one, hj]
      | register w c => exact absurd (hk.symm.trans hsh.1) (by decide)
      | _ => simp [dispatchGain, Ev.enters]
    have h2 : (evs.map (dispatchGain M j)).sum = entering j evs * max 1 M := by
      rw [sum_map_congr h1]
      unfold entering
      clear h1 hi
      induction evs with
      | nil => simp
      | cons a t ih => simp only [List.map_cons, List.sum_cons, ih, Nat.add_mul]
    rw [h2, entering_eq hi j, adopts_false_key (t := ⟨s, m, s'⟩) (by rw [hk]; exact keys_ne.1.symm)]
    by_cases ha : Spec.accepts j ⟨s, m, s'⟩ = true <;> simp [ha]
  · rw [accepts_false_key (t := ⟨s, m, s'⟩) hk]
    have h1 : ∀ e ∈ evs, dispatchGain M j e = 0 := by
      intro e he
      have hsh := hi.script.shape e he
      cases e with
      | accept r => exact absurd hsh hk
      | _ => rfl
    rw [sum_map_congr (g := fun _ => 0) h1]
    clear h1 hi
    induction evs <;> simp_all

end Broker
