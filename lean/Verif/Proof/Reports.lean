import Verif.Proof.Dispatch

/-! # Registrations, reports and dispatches per worker identity -/

set_option linter.unusedSectionVars false
set_option linter.unusedSimpArgs false

namespace Broker

open QueueManager LawfulQM

variable {Q : Type} [QueueManager Q] [LawfulQM Q]

/-- The event is a registration of identity `i`. -/
def Ev.regs (i : String) : Ev → Nat
  | .register w _ => if w.identity = i then 1 else 0
  | _ => 0

/-- The event is a handled report of identity `i`. -/
def Ev.reps (i : String) : Ev → Nat
  | .done w _ => if w.identity = i then 1 else 0
  | .failed w _ _ => if w.identity = i then 1 else 0
  | .cancel w _ => if w.identity = i then 1 else 0
  | _ => 0

/-- The event gives a request to identity `i`. -/
def Ev.givesTo (i : String) : Ev → Nat
  | .send w _ => if w.identity = i then 1 else 0
  | .pull w _ => if w.identity = i then 1 else 0
  | _ => 0

/-- Registered workers with identity `i`. -/
def LS.regI (i : String) (L : LS) : Nat := L.reg.countP (fun w => w.identity = i)
/-- Busy workers with identity `i`. -/
def LS.busyI (i : String) (L : LS) : Nat := L.busy.countP (fun p => p.1.identity = i)

theorem LStep.flow {M : Nat} {L L' : LS} {e : Ev} (h : LStep M L e L') (i : String) :
    L'.regI i + L.busyI i + e.givesTo i ≤ L.regI i + L'.busyI i + e.regs i + e.reps i := by
  cases h with
  | register w cur hw hf hcur =>
    cases cur <;>
      simp only [LS.regI, LS.busyI, Ev.givesTo, Ev.regs, Ev.reps, Option.map_none, Option.map_some,
        Option.toList_none, Option.toList_some, Multiset.coe_nil, Multiset.coe_singleton,
        zero_add, Multiset.countP_add, Multiset.countP_cons, countP_one] <;> omega
  | send w r hnd hh hw hidle hcan hcomp hfc =>
    simp only [LS.regI, LS.busyI, Ev.givesTo, Ev.regs, Ev.reps, Multiset.countP_cons]; omega
  | pull w r q hq hw hidle hcan =>
    simp only [LS.regI, LS.busyI, Ev.givesTo, Ev.regs, Ev.reps, Multiset.countP_cons]; omega
  | done w r b hb =>
    simp only [LS.regI, LS.busyI, Ev.givesTo, Ev.regs, Ev.reps, Multiset.countP_cons, hb]; omega
  | failed w r text b hb =>
    simp only [LS.regI, LS.busyI, Ev.givesTo, Ev.regs, Ev.reps, Multiset.countP_cons, hb]; omega
  | cancel w r b hb =>
    simp only [LS.regI, LS.busyI, Ev.givesTo, Ev.regs, Ev.reps, Multiset.countP_cons, hb]; omega
  | expire w cur qs g b q hg hb hq =>
    cases cur <;>
      simp only [LS.regI, LS.busyI, Ev.givesTo, Ev.regs, Ev.reps, Option.map_none, Option.map_some,
        Option.toList_none, Option.toList_some, Multiset.coe_nil, Multiset.coe_singleton,
        zero_add, Multiset.countP_add, Multiset.countP_cons, countP_one, hg, hb] <;> omega
  | _ => simp only [LS.regI, LS.busyI, Ev.givesTo, Ev.regs, Ev.reps]; omega

theorem LSteps.flow {M : Nat} {L L' : LS} {es : List Ev} (h : LSteps M L es L') (i : String) :
    L'.regI i + L.busyI i + (es.map (Ev.givesTo i)).sum
      ≤ L.regI i + L'.busyI i + (es.map (Ev.regs i)).sum + (es.map (Ev.reps i)).sum := by
  induction h with
  | nil => simp
  | cons h _ ih =>
    have := h.flow i
    simp only [List.map_cons, List.sum_cons]
    omega

theorem sum_zero {α : Type} {l : List α} {f : α → Nat} (h : ∀ x ∈ l, f x = 0) :
    (l.map f).sum = 0 := by
  induction l with
  | nil => rfl
  | cons a t ih =>
    simp only [List.map_cons, List.sum_cons]
    rw [h a (by simp), ih (fun x hx => h x (List.mem_cons_of_mem _ hx))]

theorem TimerEv.regs {e : Ev} (h : TimerEv e) (i : String) : e.regs i = 0 ∧ e.reps i = 0 := by
  cases e <;> simp_all [TimerEv, Ev.regs, Ev.reps]

theorem Next.reps {w : Worker} {t : List Ev} (h : Next w t) (i : String) :
    (t.map (Ev.reps i)).sum = 0 := by
  cases h <;> rfl

theorem DoneScript.reps {M : Nat} {s s' : HState Q} {w : Worker} {r : Req} {status : String}
    {rest : List String} {evs : List Ev} (h : DoneScript M s s' w r status rest evs) (i : String) :
    (evs.map (Ev.reps i)).sum
      = if Spec.effective status rest = true ∧ w.identity = i then 1 else 0 := by
  cases h with
  | ok hst ht => simp [Ev.reps, ht.reps i, hst, Spec.effective]
  | failed hst hr ht => simp [Ev.reps, ht.reps i, hst, hr, Spec.effective]
  | adopted hst hr => simp [Ev.reps, hst, hr, Spec.effective]
  | exhausted hst hr hc hfc ht => simp [Ev.reps, ht.reps i, hst, hr, Spec.effective]
  | resent hst hr => simp [Ev.reps, hst, hr, Spec.effective]
  | parked hst hr => simp [Ev.reps, hst, hr, Spec.effective]
  | ignored hs hst =>
    obtain ⟨h1, h2⟩ := hst
    have : Spec.effective status rest = false := by
      rcases h2 with h2 | h2
      · simp [Spec.effective, h1, h2.1, h2.2]
      · simp [Spec.effective, h1, h2]
    simp [this]

theorem RegScript.regs {w : Worker} {cur : Option Req} {evs : List Ev} (h : RegScript w cur evs)
    (i : String) : (evs.map (Ev.regs i)).sum = (if w.identity = i then 1 else 0) ∧
      (evs.map (Ev.reps i)).sum = 0 := by
  cases h <;> simp [Ev.regs, Ev.reps]

theorem fromWorker_iff {c i : String} {t : Tr Q} : Spec.fromWorker c i t = true ↔
    t.msg.key = "workers" ∧ t.msg.identity = i ∧ t.msg.data.head? = some c := by
  simp [Spec.fromWorker, and_assoc]

/-- Registrations and reports of a step are bounded by its message. -/
theorem StepInfo.regs_reps {cfg : HConfig} {env : Env} {m : Msg} {s s' : HState Q} {evs : List Ev}
    (hi : StepInfo cfg env m s s' evs) (i : String) :
    (evs.map (Ev.regs i)).sum ≤ (if Spec.fromWorker "init" i (⟨s, m, s'⟩ : Tr Q) = true then 1 else 0) ∧
    (evs.map (Ev.reps i)).sum ≤ (if Spec.fromWorker "done" i (⟨s, m, s'⟩ : Tr Q) = true then 1 else 0) := by
  have zero : (∀ e ∈ evs, e.regs i = 0 ∧ e.reps i = 0) →
      (evs.map (Ev.regs i)).sum = 0 ∧ (evs.map (Ev.reps i)).sum = 0 := fun h =>
    ⟨sum_zero (fun e he => (h e he).1), sum_zero (fun e he => (h e he).2)⟩
  have fin : (∀ e ∈ evs, e.regs i = 0 ∧ e.reps i = 0) →
      (evs.map (Ev.regs i)).sum ≤ (if Spec.fromWorker "init" i (⟨s, m, s'⟩ : Tr Q) = true then 1 else 0) ∧
      (evs.map (Ev.reps i)).sum ≤ (if Spec.fromWorker "done" i (⟨s, m, s'⟩ : Tr Q) = true then 1 else 0) := by
    intro h
    rw [(zero h).1, (zero h).2]
    exact ⟨Nat.zero_le _, Nat.zero_le _⟩
  cases hi.script with
  | init hk hd h =>
    have key : ∀ {g : String} {hs : Headers} {ex : List String} {w : Worker} {cur : Option Req} {evs' : List Ev},
        NewWorker (HState.heard cfg m.identity { s with outs := [] }) env m.identity g hs ex w cur →
        RegScript w cur evs' → (evs'.map (Ev.regs i)).sum
          ≤ (if Spec.fromWorker "init" i (⟨s, m, s'⟩ : Tr Q) = true then 1 else 0) ∧
          (evs'.map (Ev.reps i)).sum = 0 := by
      intro g hs ex w cur evs' hn hr
      obtain ⟨r1, r2⟩ := hr.regs i
      refine ⟨?_, r2⟩
      rw [r1, (Worker.create_fields hn.created).2.1]
      by_cases hid : m.identity = i
      · rw [if_pos hid, if_pos (fromWorker_iff.2 ⟨hk, hid, by rw [hd]; rfl⟩)]
      · rw [if_neg hid]; exact Nat.zero_le _
    cases h with
    | short => exact fin (by simp)
    | same => exact fin (by simp)
    | fresh hm hw hn hf hr =>
      obtain ⟨k1, k2⟩ := key hn hr
      exact ⟨k1, by rw [k2]; exact Nat.zero_le _⟩
    | again hm hw hne hn hf hr =>
      obtain ⟨k1, k2⟩ := key hn hr
      simp only [List.map_cons, List.sum_cons, Ev.regs, Ev.reps, Nat.zero_add]
      exact ⟨k1, by rw [k2]; exact Nat.zero_le _⟩
  | done hk hd h =>
    cases h with
    | unknown => exact fin (by simp)
    | short => exact fin (by simp)
    | stale => exact fin (by simp)
    | report hw hm hb hj hf hd' =>
      have hid := (regFind_mem hw).2
      constructor
      · rw [sum_zero]
        · exact Nat.zero_le _
        · intro e he
          have := hd'.shape e he
          cases e <;> simp_all [DoneEv, Ev.regs]
      · rw [hd'.reps i]
        split
        · rename_i hc
          rw [if_pos (fromWorker_iff.2 ⟨hk, hid.symm.trans hc.2, by rw [hd]; rfl⟩)]
        · exact Nat.zero_le _
  | timer hk hd ht h => exact fin (fun e he => (h.script.shape e he).regs i)
  | eval hk hd hf h =>
    refine fin ?_
    intro e he
    have hsh := Script.shape hi.script e he
    have hne : keyClients ≠ keyWorkers := by decide
    cases e with
    | register => exact absurd (hk.symm.trans hsh.1) hne
    | done => exact absurd (hk.symm.trans hsh.1) hne
    | failed => exact absurd (hk.symm.trans hsh.1) hne
    | cancel => exact absurd (hk.symm.trans hsh.1) hne
    | _ => exact ⟨rfl, rfl⟩
  | ping => exact fin (by simp [Ev.regs, Ev.reps])
  | progress => exact fin (by simp [Ev.regs, Ev.reps])
  | workerUnknown => exact fin (by simp)
  | stats => exact fin (by simp [Ev.regs, Ev.reps])
  | freeze => exact fin (by simp [Ev.regs, Ev.reps])
  | unfreeze => exact fin (by simp [Ev.regs, Ev.reps])
  | clientUnknown => exact fin (by simp)
  | other => exact fin (by simp)

theorem evalTo_count {cfg : HConfig} {env : Env} {h : List (Tr Q)} {m : Msg} {s s' : HState Q}
    {evs : List Ev} (hr : Run cfg env h s) (hi : StepInfo cfg env m s s' evs) {e : Ev}
    (he : e ∈ evs) (i : String) : e.msgs.countP (Spec.isEvalTo i) = e.givesTo i := by
  cases hg : e.gives with
  | none =>
    have h0 : e.givesTo i = 0 := by cases e <;> simp_all [Ev.gives, Ev.givesTo]
    rw [h0, List.countP_eq_zero]
    intro o ho hc
    have := eval_msgs_none (hi.script.shape e he) hg ho
      (fun w r h => hi.steps.resend_frames (by rw [← h]; exact he))
    simp [Spec.isEvalTo, this] at hc
  | some p =>
    obtain ⟨w, r⟩ := p
    obtain ⟨g1, _, g3, _⟩ := hr.gives hi he hg
    obtain ⟨x, hx⟩ := g3.frames
    have hms : e.msgs = [sendMsg w r] ∧ e.givesTo i = if w.identity = i then 1 else 0 := by
      cases e <;> simp_all [Ev.gives, Ev.msgs, Ev.givesTo]
    rw [hms.1, hms.2]
    by_cases hj : w.identity = i <;>
      simp [sendMsg, Spec.isEvalTo, Spec.isEval, keyWorkers, hx, hj]

/-- Busy workers are registered. -/
theorem HInv.busyI_le {s : HState Q} (h : HInv s) (i : String) :
    (ls s 0).busyI i ≤ (ls s 0).regI i := by
  have hn : ((busy s.queue).map (·.1)).Nodup := by
    refine Multiset.Nodup.of_map (·.addr) ?_
    rw [Multiset.map_map]
    exact busy_nodup h.qinv
  have hle : (busy s.queue).map (·.1) ≤ reg s.queue := by
    rw [Multiset.le_iff_subset hn]
    intro w hw
    obtain ⟨p, hp, rfl⟩ := Multiset.mem_map.1 hw
    exact busy_reg h.qinv p hp
  have := Multiset.countP_le_of_le (fun w => w.identity = i) hle
  rw [Multiset.countP_map] at this
  show (busy s.queue).countP _ ≤ (reg s.queue).countP _
  rw [Multiset.countP_eq_card_filter]
  exact this

/-! ## A measure for termination -/

/-- Reports still possible for a held request. -/
def reportW (M : Nat) : Weights where
  b n r := if r.complete = true then max 1 M - n else 1
  q n r := if r.complete = true then max 1 M - n else 0
  h n r := if r.complete = true then max 1 M - n else 0

/-- The event is a handled report. -/
def reportCost : Ev → Nat
  | .done _ _ => 1
  | .failed _ _ _ => 1
  | .cancel _ _ => 1
  | _ => 0

/-- Gains by new requests. -/
def reportGain (M : Nat) : Ev → Nat
  | .accept _ => max 1 M
  | .register _ (some _) => 1
  | _ => 0

theorem reportLaws {M : Nat} (hM : M < SZ) : WLaws M (reportW M) reportCost (reportGain M) where
  say _ := Nat.le_refl _
  drop := Nat.le_refl _
  accept r hc := by simp [reportW, reportCost, reportGain, hc]
  register0 _ := Nat.le_refl _
  register w r hc := by simp [reportW, reportCost, reportGain, hc]
  send w r n hc hn := by simp [reportW, reportCost, reportGain, hc]
  park r n hc hn := by simp [reportW, reportCost, reportGain]
  pull w r n hc hn := by simp [reportW, reportCost, reportGain, hc]
  resend _ _ _ _ := Nat.le_refl _
  done w r n hn := by
    simp only [reportW, reportCost, reportGain]
    split
    · rename_i hc; have := hn hc; omega
    · omega
  failed w r t n hn := by
    simp only [reportW, reportCost, reportGain]
    split
    · rename_i hc; have := hn hc; omega
    · omega
  cancel w r n hn := by
    simp only [reportW, reportCost, reportGain]
    split
    · rename_i hc
      have := szInc_le_max hM (hn hc)
      rw [this.1]; omega
    · omega
  expireCur r n hn := by
    simp only [reportW]
    split
    · rename_i hc
      have := szInc_le_max hM (hn hc)
      rw [this.1]; omega
    · omega
  expireQue r n hc hn := by simp [reportW]
  expire _ _ _ := Nat.le_refl _
  giveUp _ _ _ _ := by simp [reportCost, reportGain]

theorem report_pot_le (M : Nat) (L : LS) : pot (reportW M) L ≤ L.held.card * max 1 M := by
  have hb : ∀ m : Multiset (Worker × Req),
      (m.map (fun p => (reportW M).b (L.fc p.2.rid) p.2)).sum ≤ m.card * max 1 M := by
    intro m
    induction m using Multiset.induction_on with
    | empty => simp
    | cons a t ih =>
      simp only [Multiset.map_cons, Multiset.sum_cons, Multiset.card_cons, Nat.succ_mul]
      have : (reportW M).b (L.fc a.2.rid) a.2 ≤ max 1 M := by
        simp only [reportW]; split <;> omega
      omega
  have hq : ∀ (m : Multiset Req),
      (m.map (fun r => (reportW M).q (L.fc r.rid) r)).sum ≤ m.card * max 1 M := by
    intro m
    induction m using Multiset.induction_on with
    | empty => simp
    | cons a t ih =>
      simp only [Multiset.map_cons, Multiset.sum_cons, Multiset.card_cons, Nat.succ_mul]
      have : (reportW M).q (L.fc a.rid) a ≤ max 1 M := by
        simp only [reportW]; split <;> omega
      omega
  have h1 := hb L.busy
  have h2 := hq L.que
  have h3 : (L.hand.map (fun r => (reportW M).h (L.fc r.rid) r)).sum ≤ L.hand.card * max 1 M :=
    hq L.hand
  simp only [pot, LS.held, Multiset.card_add, Multiset.card_map, Nat.add_mul]
  omega

theorem sum_le_list {α : Type} {l : List α} {f g : α → Nat} (h : ∀ x, f x ≤ g x) :
    (l.map f).sum ≤ (l.map g).sum := by
  induction l with
  | nil => simp
  | cons a t ih => simp only [List.map_cons, List.sum_cons]; have := h a; omega

theorem handled_cost {cfg : HConfig} {env : Env} {m : Msg} {s s' : HState Q} {evs : List Ev}
    (hs : HInv s) (hi : StepInfo cfg env m s s' evs) :
    (if Spec.handledReport (⟨s, m, s'⟩ : Tr Q) = true then 1 else 0)
      ≤ (evs.map reportCost).sum := by
  split
  · rename_i hh
    unfold Spec.handledReport at hh
    split at hh
    · rename_i c j status rest hd
      simp only [Bool.and_eq_true, beq_iff_eq] at hh
      obtain ⟨⟨⟨hk, rfl⟩, heff⟩, hcur⟩ := hh
      have hk : m.key = keyWorkers := hk
      have hd : m.data = "done" :: j :: status :: rest := hd
      have hne : keyWorkers ≠ keyClients := by decide
      have hne2 : keyWorkers ≠ keyTimer := by decide
      cases hi.script with
      | done hk' hd' h =>
        have hfind : ∀ {w}, regFind m.identity (HState.heard cfg m.identity
            { s with outs := [] }).workers = some w →
            s.workers.find? (fun w => w.identity == m.identity) = some w := by
          intro w hw; rw [heard_workers] at hw; exact hw
        cases h with
        | unknown hw => rw [heard_workers] at hw; simp only [regFind] at hw; simp [hw] at hcur
        | short hl => rw [hd] at hl; simp at hl; omega
        | stale hw hm hb hj hs' =>
          rename_i w r c' j' st' rest'
          have hm2 := hm
          rw [hd] at hm2
          simp only [List.cons.injEq] at hm2
          have hb' : (w, r) ∈ busy s.queue := by rw [heard_frame] at hb; exact hb
          have hc := ((LawfulQM.current hs.qinv (busy_reg hs.qinv _ hb')).2 r).2 hb'
          simp only [hfind hw, hc, Option.map_some, beq_iff_eq, Option.some.injEq] at hcur
          exact absurd (hm2.2.1.symm.trans hcur.symm) hj
        | report hw hm hb hj hf hds =>
          rename_i w r c' j' st' rest'
          have hm2 := hm
          rw [hd] at hm2
          simp only [List.cons.injEq] at hm2
          obtain ⟨-, -, rfl, rfl⟩ := hm2
          have h1 := hds.reps w.identity
          rw [if_pos ⟨heff, rfl⟩] at h1
          rw [← h1]
          refine sum_le_list (fun e => ?_)
          cases e <;> simp [Ev.reps, reportCost] <;> split <;> omega
      | init hk' hd' => rw [hd] at hd'; simp at hd'
      | ping hk' hd' => rw [hd] at hd'; simp at hd'
      | progress hk' hd' => rw [hd] at hd'; simp at hd'
      | workerUnknown hk' hd' hc =>
        rw [hd] at hd'; simp only [List.cons.injEq] at hd'; exact absurd hd'.1.symm hc.2.1
      | eval hk' => exact absurd (hk.symm.trans hk') hne
      | stats hk' => exact absurd (hk.symm.trans hk') hne
      | freeze hk' => exact absurd (hk.symm.trans hk') hne
      | unfreeze hk' => exact absurd (hk.symm.trans hk') hne
      | clientUnknown hk' => exact absurd (hk.symm.trans hk') hne
      | timer hk' => exact absurd (hk.symm.trans hk') hne2
      | other hk' => exact absurd hk hk'.1
    · cases hh
  · exact Nat.zero_le _

theorem sum_zero_mem {α : Type} {l : List α} {f : α → Nat} (h : (l.map f).sum = 0) {x : α}
    (hx : x ∈ l) : f x = 0 := by
  induction l with
  | nil => simp at hx
  | cons a t ih =>
    simp only [List.map_cons, List.sum_cons] at h
    rcases List.mem_cons.1 hx with rfl | hx
    · omega
    · exact ih (by omega) hx

theorem report_gain_zero {cfg : HConfig} {env : Env} {m : Msg} {s s' : HState Q} {evs : List Ev}
    (hi : StepInfo cfg env m s s' evs)
    (hno : ∀ j, Spec.accepts j (⟨s, m, s'⟩ : Tr Q) = false ∧
      Spec.adopts j (⟨s, m, s'⟩ : Tr Q) = false) (M : Nat) :
    (evs.map (reportGain M)).sum = 0 := by
  refine sum_zero (fun e he => ?_)
  have key : ∀ r, r ∉ e.enters := by
    intro r hr
    have h1 := entering_eq hi r.jobId
    rw [(hno r.jobId).1, (hno r.jobId).2] at h1
    simp only [Bool.false_eq_true, if_false] at h1
    unfold entering at h1
    have h2 : e.enters.countP (fun x => x.jobId = r.jobId) = 0 :=
      sum_zero_mem h1 he
    rw [Multiset.countP_eq_zero] at h2
    exact h2 r hr rfl
  cases e with
  | accept r => exact absurd (by simp [Ev.enters]) (key r)
  | register w c =>
    cases c with
    | none => rfl
    | some r => exact absurd (by simp [Ev.enters]) (key r)
  | _ => rfl

/-- The state of a history is determined. -/
theorem Run.unique {cfg : HConfig} {env : Env} {h : List (Tr Q)} {s s' : HState Q}
    (h1 : Run cfg env h s) (h2 : Run cfg env h s') : s = s' := by
  cases h1 with
  | nil =>
    generalize hh : ([] : List (Tr Q)) = h at h2
    cases h2 with
    | nil => rfl
    | snoc => simp at hh
  | snoc hr hs =>
    generalize hh : _ ++ [_] = h at h2
    cases h2 with
    | nil => simp at hh
    | snoc hr' hs' =>
      have := (List.append_inj' hh rfl).2
      simp only [List.cons.injEq, and_true, Tr.mk.injEq] at this
      exact this.2.2

end Broker
