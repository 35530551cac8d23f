import Verif.Proof.Reports

/-! # How requests come to be in progress, and how often they were tried -/

set_option linter.unusedSectionVars false
set_option linter.unusedSimpArgs false

namespace Broker

open QueueManager LawfulQM

variable {Q : Type} [QueueManager Q] [LawfulQM Q]

/-! ## Requests in progress -/

/-- The event makes the worker process the request. -/
def Ev.starts : Ev → Option (Worker × Req)
  | .send w r => some (w, r)
  | .pull w r => some (w, r)
  | .register w (some r) => some (w, r)
  | _ => none

/-- The event ends the processing. -/
def Ev.frees (p : Worker × Req) : Ev → Prop
  | .done w r => (w, r) = p
  | .failed w r _ => (w, r) = p
  | .cancel w r => (w, r) = p
  | .expire w (some r) _ => (w, r) = p
  | _ => False

theorem LInv.busy_ne {M : Nat} {L : LS} (h : LInv M L) {p x : Worker × Req}
    {b : Multiset (Worker × Req)} (hb : L.busy = p ::ₘ b) (hx : x ∈ b) : p ≠ x := by
  rintro rfl
  refine h.rid_ne (r := p.2) (rest := b.map (·.2) + L.que + L.hand) ?_ (x := p.2) ?_ rfl
  · simp [LS.held, hb]
  · simp only [Multiset.mem_add, Multiset.mem_map]
    exact .inl (.inl ⟨p, hx, rfl⟩)

theorem LStep.mem_busy {M : Nat} {L L' : LS} {e : Ev} (h : LStep M L e L') (hi : LInv M L)
    {p : Worker × Req} (hp : p ∈ L'.busy) : e.starts = some p ∨ (p ∈ L.busy ∧ ¬ e.frees p) := by
  cases h with
  | register w cur hw hf hcur =>
    cases cur with
    | none => exact .inr ⟨by simpa using hp, fun h => h⟩
    | some r =>
      have hp : p = (w, r) ∨ p ∈ L.busy := by simpa using hp
      rcases hp with rfl | hp
      · exact .inl rfl
      · exact .inr ⟨hp, fun h => h⟩
  | send w r hnd hh hw hidle hcan hcomp hfc =>
    rcases Multiset.mem_cons.1 hp with rfl | hp
    · exact .inl rfl
    · exact .inr ⟨hp, fun h => h⟩
  | pull w r q hq hw hidle hcan =>
    rcases Multiset.mem_cons.1 hp with rfl | hp
    · exact .inl rfl
    · exact .inr ⟨hp, fun h => h⟩
  | done w r b hb => exact .inr ⟨by rw [hb]; exact Multiset.mem_cons_of_mem hp, hi.busy_ne hb hp⟩
  | failed w r text b hb =>
    exact .inr ⟨by rw [hb]; exact Multiset.mem_cons_of_mem hp, hi.busy_ne hb hp⟩
  | cancel w r b hb => exact .inr ⟨by rw [hb]; exact Multiset.mem_cons_of_mem hp, hi.busy_ne hb hp⟩
  | expire w cur qs g b q hg hb hq =>
    cases cur with
    | none => exact .inr ⟨by rw [hb]; simpa using hp, fun h => h⟩
    | some r =>
      have hb' : L.busy = (w, r) ::ₘ b := by simpa using hb
      exact .inr ⟨by rw [hb']; exact Multiset.mem_cons_of_mem hp, hi.busy_ne hb' hp⟩
  | _ => exact .inr ⟨hp, fun h => h⟩

theorem LSteps.mem_busy {M : Nat} (hM : M < SZ) {L L' : LS} {es : List Ev} (h : LSteps M L es L')
    (hi : LInv M L) {p : Worker × Req} (hp : p ∈ L'.busy) :
    (∃ e ∈ es, e.starts = some p) ∨ (p ∈ L.busy ∧ ∀ e ∈ es, ¬ e.frees p) := by
  induction h with
  | nil => exact .inr ⟨hp, by simp⟩
  | cons h ht ih =>
    rcases ih (h.linv hM hi) hp with ⟨e, he, hs⟩ | ⟨h1, h2⟩
    · exact .inl ⟨e, List.mem_cons_of_mem _ he, hs⟩
    · rcases h.mem_busy hi h1 with hs | ⟨h3, h4⟩
      · exact .inl ⟨_, List.mem_cons_self, hs⟩
      · refine .inr ⟨h3, fun e he => ?_⟩
        rcases List.mem_cons.1 he with rfl | he
        · exact h4
        · exact h2 e he

/-- A handled report of a worker ends what it was processing. -/
theorem handled_frees {cfg : HConfig} {env : Env} {m : Msg} {s s' : HState Q} {evs : List Ev}
    (hs : HInv s) (hi : StepInfo cfg env m s s' evs) {w : Worker} {r : Req}
    (hh : Spec.handledReport (⟨s, m, s'⟩ : Tr Q) = true)
    (hw : s.workers.find? (fun w => w.identity == m.identity) = some w)
    (hb : (w, r) ∈ busy s.queue) : ∃ e ∈ evs, e.frees (w, r) := by
  unfold Spec.handledReport at hh
  split at hh
  · rename_i c j status rest hd
    simp only [Bool.and_eq_true, beq_iff_eq] at hh
    obtain ⟨⟨⟨hk, rfl⟩, heff⟩, hcur⟩ := hh
    have hk : m.key = keyWorkers := hk
    have hd : m.data = "done" :: j :: status :: rest := hd
    have hne : keyWorkers ≠ keyClients := by decide
    have hne2 : keyWorkers ≠ keyTimer := by decide
    have hc := ((LawfulQM.current hs.qinv (busy_reg hs.qinv _ hb)).2 r).2 hb
    cases hi.script with
    | done hk' hd' h =>
      have hfind : ∀ {w'}, regFind m.identity (HState.heard cfg m.identity
          { s with outs := [] }).workers = some w' → w' = w := by
        intro w' hw'
        rw [heard_workers] at hw'
        have hw'' : s.workers.find? (fun w => w.identity == m.identity) = some w' := hw'
        rw [hw''] at hw
        exact Option.some.inj hw
      cases h with
      | unknown hw' =>
        rw [heard_workers] at hw'; simp only [regFind] at hw'; simp [hw'] at hcur
      | short hl => rw [hd] at hl; simp at hl; omega
      | stale hw' hm hb' hj hs' =>
        rename_i w' r' c' j' st' rest'
        have hm2 := hm
        rw [hd] at hm2
        simp only [List.cons.injEq] at hm2
        have hb' : (w', r') ∈ busy s.queue := by rw [heard_frame] at hb'; exact hb'
        have := hfind hw'
        subst this
        have hc' := ((LawfulQM.current hs.qinv (busy_reg hs.qinv _ hb')).2 r').2 hb'
        rw [hc] at hc'
        cases hc'
        simp only [hw, hc, Option.map_some, beq_iff_eq, Option.some.injEq] at hcur
        exact absurd (hm2.2.1.symm.trans hcur.symm) hj
      | report hw' hm hb' hj hf hds =>
        rename_i w' r' c' j' st' rest'
        have hm2 := hm
        rw [hd] at hm2
        simp only [List.cons.injEq] at hm2
        obtain ⟨-, -, rfl, rfl⟩ := hm2
        have hb' : (w', r') ∈ busy s.queue := by rw [heard_frame] at hb'; exact hb'
        have := hfind hw'
        subst this
        have hc' := ((LawfulQM.current hs.qinv (busy_reg hs.qinv _ hb')).2 r').2 hb'
        rw [hc] at hc'
        cases hc'
        cases hds with
        | ignored _ hst =>
          obtain ⟨h1, h2⟩ := hst
          rcases h2 with h2 | h2
          · simp [Spec.effective, h1, h2.1, h2.2] at heff
          · simp [Spec.effective, h1, h2] at heff
        | _ => exact ⟨_, List.mem_cons_self, rfl⟩
    | init hk' hd' => rw [hd] at hd'; simp at hd'
    | ping hk' hd' => rw [hd] at hd'; simp at hd'
    | progress hk' hd' => rw [hd] at hd'; simp at hd'
    | workerUnknown hk' hd' hc =>
      rw [hd] at hd'; simp only [List.cons.injEq] at hd'; exact absurd hd'.1.symm hc.2.1
    | eval hk' => exact absurd (hk.symm.trans hk') hne
    | stats hk' => exact absurd (hk.symm.trans hk') hne
    | freeze hk' => exact absurd (hk.symm.trans hk') hne
    | unfreeze hk' => exact absurd (hk.symm.trans hk') hne
    | clientUnknown hk' => exact absurd (hk.symm.trans hk') hne
    | timer hk' => exact absurd (hk.symm.trans hk') hne2
    | other hk' => exact absurd hk hk'.1
  · cases hh

/-! ## Failures and dispatches -/

/-- Dispatches of job `j` with an event. -/
def Ev.tries (j : String) (e : Ev) : Nat :=
  match e.gives with
  | some (_, r) => if r.complete = true ∧ r.jobId = j then 1 else 0
  | none => 0

/-- Every counted failure of a request was preceded by a dispatch of it; `K j` is the number of
    dispatches of job `j`. -/
structure Paid (K : String → Nat) (L : LS) : Prop where
  busy : ∀ p ∈ L.busy, p.2.complete = true → L.fc p.2.rid + 1 ≤ K p.2.jobId
  que : ∀ r ∈ L.que, r.complete = true → L.fc r.rid ≤ K r.jobId
  hand : ∀ r ∈ L.hand, r.complete = true → L.fc r.rid ≤ K r.jobId

theorem szInc_le (n : Nat) : szInc n ≤ n + 1 := Nat.mod_le _ _

theorem LStep.fc_same {M : Nat} {L L' : LS} {e : Ev} (h : LStep M L e L') (hi : LInv M L) {r : Req}
    (hr : r ∈ L.held) (hne : ∀ r', e.counts = some r' → r.rid ≠ r'.rid) :
    L'.fc r.rid = L.fc r.rid := by
  rw [h.fc_eq (hi.lt r hr)]
  split
  · rename_i r' hc
    rw [if_neg (hne r' hc)]
  · rfl

/-- Removing the request a worker processes: the count of the others stays, its own grows by at most
    one. -/
theorem LInv.rest_ne {M : Nat} {L : LS} (hi : LInv M L) {w : Worker} {r : Req}
    {b : Multiset (Worker × Req)} (hb : L.busy = (w, r) ::ₘ b) {x : Req}
    (hx : x ∈ b.map (·.2) + L.que + L.hand) : x.rid ≠ r.rid :=
  hi.rid_ne (by simp [LS.held, hb]) hx

theorem LStep.paid {M : Nat} {L L' : LS} {e : Ev} (h : LStep M L e L') (hi : LInv M L)
    {K : String → Nat} (hp : Paid K L) : Paid (fun j => K j + e.tries j) L' := by
  have hB : ∀ p ∈ L.busy, p.2 ∈ L.held := fun p hp => LS.mem_held.2 (.inl ⟨p.1, hp⟩)
  have hQ : ∀ r ∈ L.que, r ∈ L.held := fun r hr => LS.mem_held.2 (.inr (.inl hr))
  have hH : ∀ r ∈ L.hand, r ∈ L.held := fun r hr => LS.mem_held.2 (.inr (.inr hr))
  have hfc := fun {r} => h.fc_same (r := r) hi
  -- events that count no failure and move nothing
  have same : e.counts = none → (∀ p ∈ L.busy, p.2.complete = true →
      L'.fc p.2.rid + 1 ≤ K p.2.jobId + e.tries p.2.jobId) ∧
      (∀ r ∈ L.que, r.complete = true → L'.fc r.rid ≤ K r.jobId + e.tries r.jobId) ∧
      (∀ r ∈ L.hand, r.complete = true → L'.fc r.rid ≤ K r.jobId + e.tries r.jobId) := by
    intro hc
    have hn : ∀ {r : Req}, ∀ r', e.counts = some r' → r.rid ≠ r'.rid := by
      intro r r' h'; rw [hc] at h'; cases h'
    refine ⟨fun p h1 h2 => ?_, fun r h1 h2 => ?_, fun r h1 h2 => ?_⟩
    · have := hp.busy p h1 h2; rw [hfc (hB p h1) hn]; omega
    · have := hp.que r h1 h2; rw [hfc (hQ r h1) hn]; omega
    · have := hp.hand r h1 h2; rw [hfc (hH r h1) hn]; omega
  -- events that take the request of a worker
  have take : ∀ {w : Worker} {r : Req} {b : Multiset (Worker × Req)}, L.busy = (w, r) ::ₘ b →
      (∀ r', e.counts = some r' → r' = r) →
      (∀ p ∈ b, p.2.complete = true → L'.fc p.2.rid + 1 ≤ K p.2.jobId + e.tries p.2.jobId) ∧
      (∀ x ∈ L.que, x.complete = true → L'.fc x.rid ≤ K x.jobId + e.tries x.jobId) ∧
      (∀ x ∈ L.hand, x.complete = true → L'.fc x.rid ≤ K x.jobId + e.tries x.jobId) ∧
      (r.complete = true → L'.fc r.rid ≤ K r.jobId + e.tries r.jobId) := by
    intro w r b hb hc
    have hn : ∀ {x : Req}, x ∈ b.map (·.2) + L.que + L.hand →
        ∀ r', e.counts = some r' → x.rid ≠ r'.rid := by
      intro x hx r' h'; rw [hc r' h']; exact hi.rest_ne hb hx
    have hbm : ∀ p ∈ b, p ∈ L.busy := fun p hp => by rw [hb]; exact Multiset.mem_cons_of_mem hp
    refine ⟨fun p h1 h2 => ?_, fun x h1 h2 => ?_, fun x h1 h2 => ?_, fun h2 => ?_⟩
    · have := hp.busy p (hbm p h1) h2
      rw [hfc (hB p (hbm p h1)) (hn (by
        simp only [Multiset.mem_add, Multiset.mem_map]; exact .inl (.inl ⟨p, h1, rfl⟩)))]
      omega
    · have := hp.que x h1 h2
      rw [hfc (hQ x h1) (hn (by simp only [Multiset.mem_add]; exact .inl (.inr h1)))]; omega
    · have := hp.hand x h1 h2
      rw [hfc (hH x h1) (hn (by simp only [Multiset.mem_add]; exact .inr h1))]; omega
    · have hm : (w, r) ∈ L.busy := by rw [hb]; simp
      have h3 : L.fc r.rid + 1 ≤ K r.jobId := hp.busy _ hm h2
      have h4 := h.fc_eq (hi.lt r (hB _ hm))
      have h5 := szInc_le (L.fc r.rid)
      rw [h4]
      split
      · split <;> omega
      · omega
  cases h with
  | say m => obtain ⟨h1, h2, h3⟩ := same rfl; exact ⟨h1, h2, h3⟩
  | drop => obtain ⟨h1, h2, h3⟩ := same rfl; exact ⟨h1, h2, h3⟩
  | accept r hid hc hcan =>
    obtain ⟨h1, h2, h3⟩ := same rfl
    refine ⟨h1, h2, fun x hx hxc => ?_⟩
    rcases Multiset.mem_cons.1 hx with rfl | hx
    · simp [upd, hid]
    · exact h3 x hx hxc
  | register w cur hw hf hcur =>
    obtain ⟨h1, h2, h3⟩ := same rfl
    refine ⟨fun p hpm hc => ?_, h2, h3⟩
    rcases Multiset.mem_add.1 hpm with hpm | hpm
    · cases cur with
      | none => simp at hpm
      | some r =>
        have : p = (w, r) := by simpa using hpm
        subst this
        obtain ⟨j, hj⟩ := hcur r rfl
        rw [show r.complete = false by rw [hj]; rfl] at hc
        cases hc
    · exact h1 p hpm hc
  | send w r hnd hh hw hidle hcan hcomp hal =>
    obtain ⟨h1, h2, h3⟩ := same rfl
    refine ⟨fun p hpm hc => ?_, h2, fun x hx hc => h3 x (by rw [hh]; exact Multiset.mem_cons_of_mem hx) hc⟩
    rcases Multiset.mem_cons.1 hpm with rfl | hpm
    · have := hp.hand r (by rw [hh]; simp) hc
      simp only [Ev.tries, Ev.gives, hcomp, true_and, if_true]
      show L.fc r.rid + 1 ≤ _
      omega
    · exact h1 p hpm hc
  | park r hnd hh hcan hcomp hal =>
    obtain ⟨h1, h2, h3⟩ := same rfl
    refine ⟨h1, fun x hx hc => ?_, fun x hx hc => h3 x (by rw [hh]; exact Multiset.mem_cons_of_mem hx) hc⟩
    rcases Multiset.mem_cons.1 hx with rfl | hx
    · exact h3 x (by rw [hh]; simp) hc
    · exact h2 x hx hc
  | pull w r q hq hw hidle hcan =>
    obtain ⟨h1, h2, h3⟩ := same rfl
    refine ⟨fun p hpm hc => ?_, fun x hx hc => h2 x (by rw [hq]; exact Multiset.mem_cons_of_mem hx) hc, h3⟩
    rcases Multiset.mem_cons.1 hpm with rfl | hpm
    · have hcomp : r.complete = true := hc
      have := hp.que r (by rw [hq]; simp) hc
      simp only [Ev.tries, Ev.gives, hcomp, true_and, if_true]
      show L.fc r.rid + 1 ≤ _
      omega
    · exact h1 p hpm hc
  | resend w r hb hc hf => obtain ⟨h1, h2, h3⟩ := same rfl; exact ⟨h1, h2, h3⟩
  | done w r b hb =>
    obtain ⟨h1, h2, h3, h4⟩ := take hb (by intro r' h'; cases h')
    exact ⟨h1, h2, h3⟩
  | failed w r text b hb =>
    obtain ⟨h1, h2, h3, h4⟩ := take hb (by intro r' h'; cases h'; rfl)
    exact ⟨h1, h2, h3⟩
  | cancel w r b hb =>
    obtain ⟨h1, h2, h3, h4⟩ := take hb (by intro r' h'; cases h'; rfl)
    refine ⟨h1, h2, fun x hx hc => ?_⟩
    rcases Multiset.mem_cons.1 hx with rfl | hx
    · exact h4 hc
    · exact h3 x hx hc
  | expire w cur qs g b q hg hb hq =>
    cases cur with
    | none =>
      obtain ⟨h1, h2, h3⟩ := same rfl
      refine ⟨fun p hpm hc => h1 p (by rw [hb]; simpa using hpm) hc,
        fun x hx hc => h2 x (by rw [hq]; simp [hx]) hc, fun x hx hc => ?_⟩
      rcases Multiset.mem_add.1 hx with hx | hx
      · exact h2 x (by rw [hq]; simpa using Or.inl hx) hc
      · exact h3 x hx hc
    | some r =>
      have hb' : L.busy = (w, r) ::ₘ b := by simpa using hb
      obtain ⟨h1, h2, h3, h4⟩ := take hb' (by intro r' h'; cases h'; rfl)
      refine ⟨h1, fun x hx hc => h2 x (by rw [hq]; simp [hx]) hc, fun x hx hc => ?_⟩
      rcases Multiset.mem_add.1 hx with hx | hx
      · have hx : x = r ∨ x ∈ qs := by simpa using hx
        rcases hx with rfl | hx
        · exact h4 hc
        · exact h2 x (by rw [hq]; simpa using Or.inl hx) hc
      · exact h3 x hx hc
  | giveUp r text hnd hh hwhy =>
    obtain ⟨h1, h2, h3⟩ := same rfl
    exact ⟨h1, h2, fun x hx hc => h3 x (by rw [hh]; exact Multiset.mem_cons_of_mem hx) hc⟩

theorem LSteps.paid {M : Nat} (hM : M < SZ) {L L' : LS} {es : List Ev} (h : LSteps M L es L')
    (hi : LInv M L) {K : String → Nat} (hp : Paid K L) :
    Paid (fun j => K j + (es.map (Ev.tries j)).sum) L' := by
  induction h generalizing K with
  | nil => simpa using hp
  | cons h _ ih =>
    have := ih (h.linv hM hi) (h.paid hi hp)
    simpa [Nat.add_assoc] using this

/-- In a history every counted failure was preceded by a dispatch. -/
theorem Run.paid {cfg : HConfig} {env : Env} {h : List (Tr Q)} {s : HState Q}
    (hr : Run cfg env h s) :
    Paid (fun j => (emitted h).countP (Spec.isEvalOf j)) (ls s 0) := by
  refine Run.induct (P := fun h s => Paid (fun j => (emitted h).countP (Spec.isEvalOf j)) (ls s 0))
    ?_ ?_ hr
  · have hb : (ls (HState.init Q) 0).busy = 0 := by simp [ls, HState.init, busy_empty]
    have hq : (ls (HState.init Q) 0).que = 0 := by simp [ls, HState.init, que_empty]
    have hh : (ls (HState.init Q) 0).hand = 0 := rfl
    exact ⟨by rw [hb]; simp, by rw [hq]; simp, by rw [hh]; simp⟩
  · intro h s m s' evs hr _ hl ih _ hi
    have h1 := hi.steps.paid cfg.maxFailures_lt hl ih
    have h2 : ∀ j, (evs.map (Ev.tries j)).sum = s'.outs.countP (Spec.isEvalOf j) := by
      intro j
      rw [hi.outs, countP_msgsOf]
      exact sum_map_congr (fun e he => (evalOf_count hr hi he j).symm)
    have h4 : emitted (h ++ [⟨s, m, s'⟩]) = emitted h ++ s'.outs := by simp [emitted, Tr.outs]
    rw [h4]
    simpa [h2, List.countP_append] using h1

/-! ## Giving up -/

/-- While a request is given up no worker registers. -/
theorem giveUp_registers {cfg : HConfig} {env : Env} {m : Msg} {s0 s' : HState Q} {evs : List Ev}
    (h : Script cfg env m s0 s' evs) {r : Req} {text : String} (hg : .giveUp r text ∈ evs) :
    ∀ e ∈ evs, e.registers = none := by
  cases h with
  | init hk hd h =>
    exfalso
    cases h with
    | short => simp at hg
    | same => simp at hg
    | fresh hm hw hn hf hr => cases hr <;> simp at hg
    | again hm hw hne hn hf hr => cases hr <;> simp at hg
  | done hk hd h =>
    cases h with
    | unknown => simp at hg
    | short => simp at hg
    | stale => simp at hg
    | report hw hm hb hj hf hd =>
      intro e he
      have := hd.shape e he
      cases e <;> simp_all [DoneEv, Ev.registers]
  | timer hk hd ht h =>
    intro e he
    have := h.script.shape e he
    cases e <;> simp_all [TimerEv, Ev.registers]
  | eval hk hd hf h =>
    exfalso
    cases h with
    | malformed => simp at hg
    | frozen => simp at hg
    | submit _ _ _ h => cases h <;> simp at hg
  | _ => simp at hg

/-- Why a request was given up, in terms of the state after the step. -/
theorem StepInfo.giveUp_why {cfg : HConfig} {env : Env} {h : List (Tr Q)} {m : Msg}
    {s s' : HState Q} {evs : List Ev} (hr : Run cfg env h s) (hi : StepInfo cfg env m s s' evs)
    {r : Req} {text : String} (hg : .giveUp r text ∈ evs) :
    r ∈ (ls s 0).held ∧ (r.complete = false ∨
      cfg.maxFailures ≤ (emitted (h ++ [⟨s, m, s'⟩])).countP (Spec.isEvalOf r.jobId) ∨
      ∀ w ∈ s'.workers, w.checkHeaders r.headers = .ok false) := by
  have hreg := giveUp_registers hi.script hg
  have hsteps := hi.steps
  obtain ⟨a, b, rfl⟩ := List.append_of_mem hg
  obtain ⟨L1, h1, h2⟩ := hsteps.append_inv
  cases h2 with
  | cons h3 h4 =>
    have hp := h1.paid cfg.maxFailures_lt hr.inv.2 hr.paid
    cases h3 with
    | giveUp r text hnd hh hwhy =>
      have hm : r ∈ L1.hand := by rw [hh]; simp
      constructor
      · have hr1 : r ∈ L1.held := LS.mem_held.2 (.inr (.inr hm))
        have : ∀ {L L' : LS} {es : List Ev}, LSteps cfg.maxFailures L es L' →
            (∀ e ∈ es, e.enters = 0) → r ∈ L'.held → r ∈ L.held := by
          intro L L' es h
          induction h with
          | nil => intro _ h; exact h
          | cons h _ ih =>
            intro he hm
            rcases h.mem_held (ih (fun e h => he e (List.mem_cons_of_mem _ h)) hm) with h' | h'
            · exact h'
            · rw [he _ List.mem_cons_self] at h'; simp at h'
        refine this h1 (fun e he => ?_) hr1
        have hsc := hi.script
        have hsh := hsc.shape e (by simp [he])
        have hre := hreg e (by simp [he])
        have hgk : EvShape m (.giveUp r text) := hsc.shape _ hg
        cases e with
        | accept x =>
          exfalso
          have hsh : m.key = keyClients := hsh
          rcases hgk with hk | hk
          · rw [hsh] at hk; exact absurd hk (by decide)
          · rw [hsh] at hk; exact absurd hk (by decide)
        | register w c => simp [Ev.registers] at hre
        | _ => rfl
      · rcases hwhy with hw | hw | hw
        · exact .inl hw
        · by_cases hc : r.complete = true
          · refine .inr (.inl ?_)
            have hle := hp.hand r hm hc
            have h4 : emitted (h ++ [⟨s, m, s'⟩]) = emitted h ++ s'.outs := by
              simp [emitted, Tr.outs]
            rw [h4, List.countP_append]
            have h5 : (a.map (Ev.tries r.jobId)).sum ≤ s'.outs.countP (Spec.isEvalOf r.jobId) := by
              rw [hi.outs, countP_msgsOf]
              rw [List.map_append, List.sum_append]
              refine Nat.le_trans (Nat.le_of_eq ?_) (Nat.le_add_right _ _)
              exact sum_map_congr (fun e he => (evalOf_count hr hi (by simp [he]) r.jobId).symm)
            omega
          · exact .inl (by simpa using hc)
        · refine .inr (.inr fun w hw' => hw w ?_)
          have hm' : w ∈ (ls s' 0).reg := hi.inv.mem_reg.1 hw'
          rcases h4.mem_reg hm' with h' | ⟨e, he, hre⟩
          · exact h'
          · rw [hreg e (by simp [he])] at hre; cases hre

/-! ## Expiring workers -/

/-- The event is the expiry of a worker. -/
def Ev.expires : Ev → Bool
  | .expire _ _ _ => true
  | _ => false

/-- Requests of job `j` survive `d` more expiries under a limit of `M` failures. -/
structure Spare (M d : Nat) (j : String) (L : LS) : Prop where
  busy : ∀ p ∈ L.busy, p.2.jobId = j → L.fc p.2.rid + 1 + d ≤ M
  que : ∀ r ∈ L.que, r.jobId = j → L.fc r.rid + d ≤ M
  hand : ∀ r ∈ L.hand, r.jobId = j → L.fc r.rid + 1 + d ≤ M

theorem LStep.spare {M d : Nat} {j : String} {L L' : LS} {e : Ev} (h : LStep M L e L')
    (hi : LInv M L) (ht : TimerEv e) (hp : Spare M (d + if e.expires then 1 else 0) j L) :
    Spare M d j L' := by
  have hB : ∀ p ∈ L.busy, p.2 ∈ L.held := fun p hp => LS.mem_held.2 (.inl ⟨p.1, hp⟩)
  have hQ : ∀ r ∈ L.que, r ∈ L.held := fun r hr => LS.mem_held.2 (.inr (.inl hr))
  have hH : ∀ r ∈ L.hand, r ∈ L.held := fun r hr => LS.mem_held.2 (.inr (.inr hr))
  cases h with
  | say m => exact ⟨hp.busy, hp.que, hp.hand⟩
  | send w r hnd hh hw hidle hcan hcomp hal =>
    refine ⟨fun p hpm hj => ?_, hp.que, fun x hx hj => hp.hand x (by rw [hh]; exact Multiset.mem_cons_of_mem hx) hj⟩
    rcases Multiset.mem_cons.1 hpm with rfl | hpm
    · exact hp.hand r (by rw [hh]; simp) hj
    · exact hp.busy p hpm hj
  | park r hnd hh hcan hcomp hal =>
    refine ⟨hp.busy, fun x hx hj => ?_, fun x hx hj => hp.hand x (by rw [hh]; exact Multiset.mem_cons_of_mem hx) hj⟩
    rcases Multiset.mem_cons.1 hx with rfl | hx
    · have := hp.hand x (by rw [hh]; simp) hj
      show L.fc x.rid + d ≤ M
      simp only [Ev.expires] at this
      simp at this
      omega
    · exact hp.que x hx hj
  | giveUp r text hnd hh hwhy =>
    exact ⟨hp.busy, hp.que, fun x hx hj => hp.hand x (by rw [hh]; exact Multiset.mem_cons_of_mem hx) hj⟩
  | expire w cur qs g b q hg hb hq =>
    have hstep := LStep.expire (M := M) L w cur qs g b q hg hb hq
    simp only [Ev.expires, if_true] at hp
    have hbm : ∀ p ∈ b, p ∈ L.busy := fun p hp => by rw [hb]; simp [hp]
    have hqm : ∀ x ∈ q, x ∈ L.que := fun p hp => by rw [hq]; simp [hp]
    have hqs : ∀ x ∈ qs, x ∈ L.que := fun p hp => by rw [hq]; simp [hp]
    have hn : ∀ {x : Req}, x ∈ b.map (·.2) + L.que + L.hand →
        ∀ r', (Ev.expire w cur qs).counts = some r' → x.rid ≠ r'.rid := by
      intro x hx r' h'
      simp only [Ev.counts] at h'
      subst h'
      exact hi.rest_ne (w := w) (by simpa using hb) hx
    have e1 : ∀ p ∈ b, bumpOpt L.fc cur p.2.rid = L.fc p.2.rid := fun p h1 =>
      hstep.fc_same hi (hB p (hbm p h1)) (hn (by
        simp only [Multiset.mem_add, Multiset.mem_map]; exact .inl (.inl ⟨p, h1, rfl⟩)))
    have e2 : ∀ x ∈ L.que, bumpOpt L.fc cur x.rid = L.fc x.rid := fun x h1 =>
      hstep.fc_same hi (hQ x h1) (hn (by simp only [Multiset.mem_add]; exact .inl (.inr h1)))
    have e3 : ∀ x ∈ L.hand, bumpOpt L.fc cur x.rid = L.fc x.rid := fun x h1 =>
      hstep.fc_same hi (hH x h1) (hn (by simp only [Multiset.mem_add]; exact .inr h1))
    refine ⟨fun p hpm hj => ?_, fun x hx hj => ?_, fun x hx hj => ?_⟩
    · have := hp.busy p (hbm p hpm) hj
      simp only [e1 p hpm]; omega
    · have := hp.que x (hqm x hx) hj
      simp only [e2 x (hqm x hx)]; omega
    · rcases Multiset.mem_add.1 hx with hx | hx
      · have hx : x ∈ cur.toList ∨ x ∈ qs := by simpa using hx
        rcases hx with hx | hx
        · have hc : cur = some x := by simpa using hx
          subst hc
          have := hp.busy (w, x) (by rw [hb]; simp) hj
          have h2 := szInc_le (L.fc x.rid)
          simp only [bumpOpt, bump, upd, if_true]
          simp only at this
          omega
        · have := hp.que x (hqs x hx) hj
          simp only [e2 x (hqs x hx)]; omega
      · have := hp.hand x hx hj
        simp only [e3 x hx]; omega
  | _ => exact ht.elim

/-- Under these conditions no request of the job is given up. -/
theorem LSteps.spare {M : Nat} (hM : M < SZ) {j : String} {L L' : LS} {es : List Ev}
    (h : LSteps M L es L') (hi : LInv M L) (ht : ∀ e ∈ es, TimerEv e)
    (hp : Spare M (es.countP Ev.expires) j L)
    (hcap : ∀ r ∈ L.held, r.jobId = j → r.complete = true ∧ ∃ w ∈ L'.reg, w.Can r.headers) :
    ∀ r text, .giveUp r text ∈ es → r.jobId ≠ j := by
  induction h with
  | nil => intro r text h; simp at h
  | cons h hts ih =>
    rename_i L L1 L2 e es
    intro r text hg hj
    have hcap' : ∀ r ∈ L1.held, r.jobId = j → r.complete = true ∧ ∃ w ∈ L2.reg, w.Can r.headers := by
      intro x hx hxj
      rcases h.mem_held hx with h' | h'
      · exact hcap x h' hxj
      · exfalso
        have := ht e List.mem_cons_self
        cases e <;> simp_all [TimerEv, Ev.enters]
    have hp' : Spare M (es.countP Ev.expires) j L1 := by
      refine h.spare hi (ht e List.mem_cons_self) ?_
      rw [List.countP_cons] at hp
      exact hp
    rcases List.mem_cons.1 hg with rfl | hg
    · cases h with
      | giveUp r text hnd hh hwhy =>
        have hm : r ∈ L.hand := by rw [hh]; simp
        obtain ⟨c1, w, hw, hcan⟩ := hcap r (LS.mem_held.2 (.inr (.inr hm))) hj
        rcases hwhy with hw' | hw' | hw'
        · rw [c1] at hw'; cases hw'
        · have := hp.hand r hm hj; omega
        · rcases hts.mem_reg hw with h' | ⟨e, he, hre⟩
          · have := hw' w h'
            rw [hcan] at this; cases this
          · have := ht e (List.mem_cons_of_mem _ he)
            cases e <;> simp_all [TimerEv, Ev.registers]
    · exact ih (h.linv hM hi) (fun e he => ht e (List.mem_cons_of_mem _ he)) hp' hcap' r text hg hj

end Broker
