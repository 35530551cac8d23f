import Verif.Proof.Dispatch
import Verif.Proof.Stuck
import Verif.Spec.Volume

/-!
# How much the broker sends: lemmas
-/

set_option linter.unusedSectionVars false
set_option linter.unusedSimpArgs false

namespace Broker

open QueueManager LawfulQM Spec

variable {Q : Type} [QueueManager Q] [LawfulQM Q]

/-! ## Counting -/

/-- Number of messages for the socket `k` among the messages of an event. -/
def volCost (k : String) (e : Ev) : Nat := e.msgs.countP (fun o => o.key == k)

/-- One, if the message has the key and the command. -/
def oneIf (k c : String) (m : Msg) : Nat := if m.key = k ∧ m.data.head? = some c then 1 else 0

theorem came_snoc (k c : String) (h : List (Tr Q)) (t : Tr Q) :
    came k c (h ++ [t]) = came k c h + oneIf k c t.msg := by
  simp [came, List.countP_append, oneIf, List.countP_singleton]

theorem arrived_snoc (k : String) (h : List (Tr Q)) (t : Tr Q) :
    arrived k (h ++ [t]) = arrived k h + if t.msg.key = k then 1 else 0 := by
  simp [arrived, List.countP_append, List.countP_singleton]

theorem left_snoc (k : String) (h : List (Tr Q)) (t : Tr Q) :
    left k (h ++ [t]) = left k h + t.outs.countP (fun o => o.key == k) := by
  simp [left, emitted, List.countP_append]

/-- A bound proved with a potential. -/
theorem volume_le {cfg : HConfig} {env : Env} {k : String} {W : Weights} {gain : Ev → Nat}
    (hW : WLaws cfg.maxFailures W (volCost k) gain) (allow : Msg → Nat)
    (ha : ∀ {m : Msg} {s s' : HState Q} {evs : List Ev}, StepInfo cfg env m s s' evs →
      (evs.map gain).sum ≤ allow m)
    {h : List (Tr Q)} {s : HState Q} (hr : Run cfg env h s) :
    pot W (ls s 0) + left k h ≤ (h.map (fun t => allow t.msg)).sum := by
  refine Run.induct (P := fun h s => pot W (ls s 0) + left k h
    ≤ (h.map (fun t => allow t.msg)).sum) ?_ ?_ hr
  · simp [pot, ls, left, emitted, HState.init, busy_empty, que_empty]
  · intro h s m s' evs _ _ hl ih _ hi
    have h1 := hi.steps.pot cfg.maxFailures_lt hW hl
    have h2 : (evs.map (volCost k)).sum = s'.outs.countP (fun o => o.key == k) := by
      rw [hi.outs, countP_msgsOf]; rfl
    have h3 := ha hi
    rw [left_snoc]
    simp only [List.map_append, List.map_cons, List.map_nil, List.sum_append, List.sum_cons,
      List.sum_nil, Tr.outs]
    rw [h2] at h1
    omega

/-! ## Messages to workers -/

/-- Dispatches still possible. -/
def giveW (M : Nat) : Weights where
  b n r := if r.complete = true then max 1 M - n - 1 else 0
  q n r := if r.complete = true then max 1 M - n else 0
  h n r := if r.complete = true then max 1 M - n else 0

/-- What pays for messages to workers. -/
def giveGain (M : Nat) : Ev → Nat
  | .say m => if m.key = "workers" then 1 else 0
  | .accept _ => max 1 M
  | .resend _ _ => 1
  | _ => 0

theorem giveLaws {M : Nat} (hM : M < SZ) : WLaws M (giveW M) (volCost "workers") (giveGain M) where
  say m := by by_cases h : m.key = "workers" <;> simp [volCost, giveGain, Ev.msgs, h]
  drop := by simp [volCost, Ev.msgs]
  accept r hc := by simp [giveW, volCost, giveGain, Ev.msgs, hc]
  register0 _ := by simp [volCost, Ev.msgs]
  register w r hc := by simp [giveW, volCost, giveGain, Ev.msgs, hc]
  send w r n hc hn := by simp [giveW, volCost, giveGain, Ev.msgs, sendMsg, keyWorkers, hc]; omega
  park r n hc hn := by simp [giveW, volCost, giveGain, Ev.msgs, hc]
  pull w r n hc hn := by simp [giveW, volCost, giveGain, Ev.msgs, sendMsg, keyWorkers, hc]; omega
  resend w r _ _ := by simp [volCost, giveGain, Ev.msgs, sendMsg, keyWorkers]
  done w r n hn := by simp [volCost, Ev.msgs, okMsg, keyNotifier]
  failed w r t n hn := by simp [volCost, Ev.msgs, failMsg, keyNotifier]
  cancel w r n hn := by
    by_cases hc : r.complete = true
    · have := szInc_le_max hM (hn hc)
      simp [giveW, volCost, giveGain, Ev.msgs, hc, this.1]; omega
    · simp [giveW, volCost, giveGain, Ev.msgs, hc]
  expireCur r n hn := by
    by_cases hc : r.complete = true
    · have := szInc_le_max hM (hn hc)
      simp [giveW, hc, this.1]; omega
    · simp [giveW, hc]
  expireQue r n hc hn := by simp [giveW, hc]
  expire _ _ _ := by simp [volCost, Ev.msgs]
  giveUp _ _ _ _ := by simp [volCost, Ev.msgs, failMsg, keyNotifier]

theorem sum_gain_zero {g : Ev → Nat} {evs : List Ev} (h : ∀ e ∈ evs, g e = 0) :
    (evs.map g).sum = 0 := by
  induction evs with
  | nil => rfl
  | cons e t ih => simp [h e (by simp), ih (fun x hx => h x (by simp [hx]))]

/-- What a message adds to the number of messages workers may be sent. -/
def giveAllow (M : Nat) (m : Msg) : Nat :=
  max 1 M * oneIf "clients" "eval" m + oneIf "workers" "init" m + oneIf "workers" "ping" m

theorem give_allow {cfg : HConfig} {env : Env} {m : Msg} {s s' : HState Q} {evs : List Ev}
    (hi : StepInfo cfg env m s s' evs) :
    (evs.map (giveGain cfg.maxFailures)).sum ≤ giveAllow cfg.maxFailures m := by
  cases hi.script with
  | init hk hd h =>
    have h1 : giveAllow cfg.maxFailures m = 1 := by
      simp [giveAllow, oneIf, hk, hd, keyWorkers]
    rw [h1]
    cases h with
    | short => simp
    | same => simp
    | fresh _ _ _ _ hr => cases hr <;> simp [giveGain]
    | again _ _ _ _ _ hr => cases hr <;> simp [giveGain, keyNotifier]
  | done hk hd h =>
    refine le_of_eq_of_le (sum_gain_zero ?_) (Nat.zero_le _)
    cases h with
    | unknown => simp
    | short => simp
    | stale => simp
    | report _ _ _ _ _ hd =>
      intro e he
      have hsh := hd.shape e he
      cases e <;> simp_all [DoneEv, giveGain]
      intro hkk
      have := hsh.1
      rw [hkk] at this
      exact absurd this (by decide)
  | ping hk hd h => simp [giveGain, giveAllow, oneIf, hk, hd, keyWorkers]
  | progress hk hd h => simp [giveGain, keyMonitor]
  | workerUnknown => simp
  | eval hk hd hf h =>
    have h1 : giveAllow cfg.maxFailures m = max 1 cfg.maxFailures := by
      simp [giveAllow, oneIf, hk, hd, keyClients]
    rw [h1]
    cases h with
    | malformed => simp [giveGain, keyClients]
    | frozen => simp [giveGain, keyClients]
    | submit _ _ _ h => cases h <;> simp [giveGain, keyClients, keyMonitor, monMsg]
  | stats => simp [giveGain, keyClients]
  | freeze => simp [giveGain, keyClients]
  | unfreeze => simp [giveGain, keyClients]
  | clientUnknown => simp
  | timer hk hd ht h =>
    refine le_of_eq_of_le (sum_gain_zero ?_) (Nat.zero_le _)
    intro e he
    have hsh := h.script.shape e he
    cases e <;> simp_all [TimerEv, giveGain]
    intro hkk
    have := hsh.1
    rw [hkk] at this
    exact absurd this (by decide)
  | other => simp

/-! ## Messages to the frontend -/

/-- One notification is still possible about every request. -/
def noteW : Weights where
  b _ _ := 1
  q _ _ := 1
  h _ _ := 1

/-- What pays for notifications. -/
def noteGain : Ev → Nat
  | .say m => if m.key = "status_notifier" then 1 else 0
  | .accept _ => 1
  | .register _ (some _) => 1
  | _ => 0

theorem noteLaws {M : Nat} : WLaws M noteW (volCost "status_notifier") noteGain where
  say m := by by_cases h : m.key = "status_notifier" <;> simp [volCost, noteGain, Ev.msgs, h]
  drop := by simp [volCost, Ev.msgs]
  accept r hc := by simp [noteW, volCost, noteGain, Ev.msgs]
  register0 _ := by simp [volCost, Ev.msgs]
  register w r hc := by simp [noteW, volCost, noteGain, Ev.msgs]
  send w r n hc hn := by simp [noteW, volCost, noteGain, Ev.msgs, sendMsg, keyWorkers]
  park r n hc hn := by simp [noteW, volCost, noteGain, Ev.msgs]
  pull w r n hc hn := by simp [noteW, volCost, noteGain, Ev.msgs, sendMsg, keyWorkers]
  resend w r _ _ := by simp [volCost, noteGain, Ev.msgs, sendMsg, keyWorkers]
  done w r n hn := by simp [noteW, volCost, Ev.msgs, okMsg, keyNotifier]
  failed w r t n hn := by simp [noteW, volCost, Ev.msgs, failMsg, keyNotifier]
  cancel w r n hn := by simp [noteW, volCost, Ev.msgs]
  expireCur r n hn := Nat.le_refl _
  expireQue r n hc hn := Nat.le_refl _
  expire _ _ _ := by simp [volCost, Ev.msgs]
  giveUp _ _ _ _ := by simp [noteW, volCost, Ev.msgs, failMsg, keyNotifier]

/-- What a message adds to the number of possible notifications. -/
def noteAllow (m : Msg) : Nat := oneIf "clients" "eval" m + 2 * oneIf "workers" "init" m

theorem note_allow {cfg : HConfig} {env : Env} {m : Msg} {s s' : HState Q} {evs : List Ev}
    (hi : StepInfo cfg env m s s' evs) : (evs.map noteGain).sum ≤ noteAllow m := by
  cases hi.script with
  | init hk hd h =>
    have h1 : noteAllow m = 2 := by simp [noteAllow, oneIf, hk, hd, keyWorkers]
    rw [h1]
    have h2 : ∀ {w cur evs}, RegScript w cur evs → (evs.map noteGain).sum ≤ 1 := by
      intro w cur evs hr
      cases hr <;> cases cur <;> simp [noteGain]
    cases h with
    | short => simp
    | same => simp
    | fresh _ _ _ _ hr => exact (h2 hr).trans (by omega)
    | again _ _ _ _ _ hr =>
      have := h2 hr
      simp only [List.map_cons, List.sum_cons, noteGain, keyNotifier, if_true]
      omega
  | done hk hd h =>
    refine le_of_eq_of_le (sum_gain_zero ?_) (Nat.zero_le _)
    cases h with
    | unknown => simp
    | short => simp
    | stale => simp
    | report _ _ _ _ _ hd =>
      intro e he
      have hsh := hd.shape e he
      cases e <;> simp_all [DoneEv, noteGain]
      intro hkk
      have := hsh.1
      rw [hkk] at this
      exact absurd this (by decide)
  | ping hk hd h => simp [noteGain, keyWorkers]
  | progress hk hd h => simp [noteGain, keyMonitor]
  | workerUnknown => simp
  | eval hk hd hf h =>
    have h1 : noteAllow m = 1 := by simp [noteAllow, oneIf, hk, hd, keyClients]
    rw [h1]
    cases h with
    | malformed => simp [noteGain, keyClients]
    | frozen => simp [noteGain, keyClients]
    | submit _ _ _ h => cases h <;> simp [noteGain, keyClients, keyMonitor, monMsg]
  | stats => simp [noteGain, keyClients]
  | freeze => simp [noteGain, keyClients]
  | unfreeze => simp [noteGain, keyClients]
  | clientUnknown => simp
  | timer hk hd ht h =>
    refine le_of_eq_of_le (sum_gain_zero ?_) (Nat.zero_le _)
    intro e he
    have hsh := h.script.shape e he
    cases e <;> simp_all [TimerEv, noteGain]
    intro hkk
    have := hsh.1
    rw [hkk] at this
    exact absurd this (by decide)
  | other => simp

/-! ## Messages to clients -/

/-- Nothing is kept for later. -/
def noW : Weights where
  b _ _ := 0
  q _ _ := 0
  h _ _ := 0

/-- What pays for messages to clients. -/
def replyGain : Ev → Nat
  | .say m => if m.key = "clients" then 1 else 0
  | _ => 0

theorem replyLaws {M : Nat} : WLaws M noW (volCost "clients") replyGain where
  say m := by by_cases h : m.key = "clients" <;> simp [volCost, replyGain, Ev.msgs, h]
  drop := by simp [volCost, Ev.msgs]
  accept r hc := by simp [noW, volCost, Ev.msgs]
  register0 _ := by simp [volCost, Ev.msgs]
  register w r hc := by simp [noW, volCost, Ev.msgs]
  send w r n hc hn := by simp [noW, volCost, Ev.msgs, sendMsg, keyWorkers]
  park r n hc hn := by simp [noW, volCost, Ev.msgs]
  pull w r n hc hn := by simp [noW, volCost, Ev.msgs, sendMsg, keyWorkers]
  resend w r _ _ := by simp [volCost, Ev.msgs, sendMsg, keyWorkers]
  done w r n hn := by simp [noW, volCost, Ev.msgs, okMsg, keyNotifier]
  failed w r t n hn := by simp [noW, volCost, Ev.msgs, failMsg, keyNotifier]
  cancel w r n hn := by simp [noW, volCost, Ev.msgs]
  expireCur r n hn := Nat.le_refl _
  expireQue r n hc hn := Nat.le_refl _
  expire _ _ _ := by simp [volCost, Ev.msgs]
  giveUp _ _ _ _ := by simp [noW, volCost, Ev.msgs, failMsg, keyNotifier]

/-- What a message adds to the number of possible replies. -/
def replyAllow (m : Msg) : Nat :=
  (if m.key = "clients" then 1 else 0) + oneIf "clients" "eval" m

theorem reply_allow {cfg : HConfig} {env : Env} {m : Msg} {s s' : HState Q} {evs : List Ev}
    (hi : StepInfo cfg env m s s' evs) : (evs.map replyGain).sum ≤ replyAllow m := by
  by_cases hk : m.key = keyClients
  · cases hi.script with
    | init hk' => exact absurd (hk.symm.trans hk') (by decide)
    | done hk' => exact absurd (hk.symm.trans hk') (by decide)
    | ping hk' => exact absurd (hk.symm.trans hk') (by decide)
    | progress hk' => exact absurd (hk.symm.trans hk') (by decide)
    | workerUnknown hk' => exact absurd (hk.symm.trans hk') (by decide)
    | timer hk' => exact absurd (hk.symm.trans hk') (by decide)
    | other hk' => exact absurd hk hk'.2.1
    | eval _ hd hf h =>
      have h1 : replyAllow m = 2 := by simp [replyAllow, oneIf, hk, hd, keyClients]
      rw [h1]
      cases h with
      | malformed => simp [replyGain, keyClients]
      | frozen => simp [replyGain, keyClients]
      | submit _ _ _ h => cases h <;> simp [replyGain, keyClients, keyMonitor, monMsg]
    | stats => simp [replyGain, replyAllow, hk, keyClients]
    | freeze => simp [replyGain, replyAllow, hk, keyClients]
    | unfreeze => simp [replyGain, replyAllow, hk, keyClients]
    | clientUnknown => simp
  · refine le_of_eq_of_le (sum_gain_zero ?_) (Nat.zero_le _)
    intro e he
    have hsh := hi.script.shape e he
    cases e with
    | say x =>
      simp only [replyGain, ite_eq_right_iff, one_ne_zero, imp_false]
      intro hx
      cases hsh with
      | client hk' => exact hk hk'
      | monitor h => exact absurd (hx.symm.trans h.1) (by decide)
      | worker _ h => exact absurd (hx.symm.trans h) (by decide)
      | error _ h => exact absurd (hx.symm.trans h) (by decide)
    | _ => rfl

/-! ## Messages to the monitor -/

/-- Number of requests the machine holds. -/
def heldIn (L : LS) : Nat := L.busy.card + L.que.card + L.hand.card

/-- Number of requests of an expired worker. -/
def Ev.moved : Ev → Nat
  | .expire _ cur qs => cur.toList.length + qs.length
  | _ => 0

theorem SettleScript.notes {M : Nat} {fc : Nat → Nat} {reg : Multiset Worker}
    {rs un : List Req} {evs : List Ev} (h : SettleScript M fc reg rs evs un) :
    (evs.map (volCost "monitor")).sum = rs.length ∧ (evs.map Ev.moved).sum = 0 := by
  induction h <;>
    simp_all [volCost, Ev.msgs, monMsg, keyMonitor, failMsg, keyNotifier, sendMsg, keyWorkers,
      Ev.moved, Nat.add_comm]

theorem ExpireAll.notes {M : Nat} {fc : Nat → Nat} {xs : List Worker} {evs : List Ev}
    (h : ExpireAll M fc xs evs) :
    (evs.map (volCost "monitor")).sum = (evs.map Ev.moved).sum := by
  induction h with
  | nil => rfl
  | cons h _ ih =>
    simp only [List.map_append, List.sum_append, ih]
    congr 1
    cases h with
    | mk h hfc =>
      rename_i cur qs e un
      have h1 := h.notes
      have h2 : ∀ (t : String) (l : List Req), ((l.map (fun r => Ev.giveUp r t)).map
          (volCost "monitor")).sum = 0 := by
        intro t l; induction l <;> simp_all [volCost, Ev.msgs, failMsg, keyNotifier]
      have h3 : ∀ (t : String) (l : List Req), ((l.map (fun r => Ev.giveUp r t)).map
          Ev.moved).sum = 0 := by
        intro t l; induction l <;> simp_all [Ev.moved]
      simp only [List.map_cons, List.sum_cons, List.map_append, List.sum_append, h1.1, h1.2, h2,
        h3, List.length_append]
      simp [volCost, Ev.msgs, Ev.moved]

/-- What expired workers leave behind. -/
theorem LSteps.moved {M B : Nat} {L L' : LS} {es : List Ev} (h : LSteps M L es L')
    (ht : ∀ e ∈ es, TimerEv e) (hB : heldIn L ≤ B) :
    (es.map Ev.moved).sum + L'.reg.card * B ≤ L.reg.card * B := by
  induction h with
  | nil => simp
  | cons h _ ih =>
    have h1 := ht _ List.mem_cons_self
    have h2 := fun hb => ih (fun x hx => ht x (by simp [hx])) hb
    simp only [List.map_cons, List.sum_cons]
    cases h with
    | say => simpa [Ev.moved] using h2 hB
    | send w r hnd hh =>
      have := h2 (by simp [heldIn, hh] at hB ⊢; omega)
      simpa [Ev.moved] using this
    | park r hnd hh =>
      have := h2 (by simp [heldIn, hh] at hB ⊢; omega)
      simpa [Ev.moved] using this
    | giveUp r t hnd hh =>
      have := h2 (by simp [heldIn, hh] at hB ⊢; omega)
      simpa [Ev.moved] using this
    | expire w cur qs g b q hg hb hq =>
      have hc : (cur.map (fun r => (w, r))).toList.length = cur.toList.length := by
        cases cur <;> rfl
      have h3 := h2 (by
        simp only [heldIn, hb, hq, Multiset.card_add, Multiset.coe_card, hc, List.length_append]
          at hB ⊢
        omega)
      simp only [hg, Multiset.card_cons, Ev.moved, Nat.add_mul, Nat.one_mul] at h3 ⊢
      simp only [heldIn, hb, hq, Multiset.card_add, Multiset.coe_card, hc] at hB
      omega
    | _ => exact absurd h1 (by simp [TimerEv])

theorem pot_note (L : LS) : pot noteW L = heldIn L := by
  simp [pot, noteW, heldIn]

/-- What a message other than one of the timer adds to the number of messages to the monitor. -/
def tellAllow (m : Msg) : Nat :=
  oneIf "clients" "eval" m + oneIf "workers" "done" m + oneIf "workers" "progress" m

theorem tell_step {cfg : HConfig} {env : Env} {m : Msg} {s s' : HState Q} {evs : List Ev}
    {B : Nat} (hv : HInv s) (hi : StepInfo cfg env m s s' evs) (hB : heldIn (ls s 0) ≤ B) :
    s'.workers.length ≤ s.workers.length + oneIf "workers" "init" m ∧
    (s'.outs.countP (fun o => o.key == "monitor") ≤ tellAllow m ∨
      s'.workers.length ≤ s.workers.length ∧
      s'.outs.countP (fun o => o.key == "monitor") + s'.workers.length * B
        ≤ s.workers.length * B) := by
  have hc : s'.outs.countP (fun o => o.key == "monitor") = (evs.map (volCost "monitor")).sum := by
    rw [hi.outs, countP_msgsOf]; rfl
  rw [hc]
  have hh : ∀ x : HState Q, (x.heard cfg m.identity).workers = x.workers := by
    intro x; rw [heard_frame cfg m.identity x]
  cases hi.script with
  | init hk hd h =>
    have h1 : oneIf "workers" "init" m = 1 := by simp [oneIf, hk, hd, keyWorkers]
    have h2 : ∀ {w cur evs}, RegScript w cur evs → (evs.map (volCost "monitor")).sum = 0 := by
      intro w cur evs hr
      cases hr <;> simp [volCost, Ev.msgs, sendMsg, keyWorkers]
    rw [h1]
    cases h with
    | short _ hfr => subst hfr; exact ⟨by simp [hh], Or.inl (by simp)⟩
    | same hfr => subst hfr; exact ⟨by simp [hh], Or.inl (by simp)⟩
    | fresh _ _ _ hf hr => exact ⟨by simp [hf.workers, hh], Or.inl (by simp [h2 hr])⟩
    | again _ _ _ _ hf hr =>
      refine ⟨by simp [hf.workers, hh], Or.inl ?_⟩
      simp only [List.map_cons, List.sum_cons, h2 hr]
      simp [volCost, Ev.msgs, keyNotifier]
  | done hk hd h =>
    have h1 : tellAllow m = 1 := by simp [tellAllow, oneIf, hk, hd, keyWorkers]
    have h2 : ∀ {w t}, Next w t → (t.map (volCost "monitor")).sum = 0 := by
      intro w t hn
      cases hn <;> simp [volCost, Ev.msgs, sendMsg, keyWorkers]
    rw [h1]
    cases h with
    | unknown _ hs => subst hs; exact ⟨by simp [hh], Or.inl (by simp)⟩
    | short _ hs => subst hs; exact ⟨by simp [hh], Or.inl (by simp)⟩
    | stale _ _ _ _ hs => subst hs; exact ⟨by simp [hh], Or.inl (by simp)⟩
    | report _ _ _ _ hf hd =>
      refine ⟨by simp [hf.workers, hh], Or.inl ?_⟩
      cases hd with
      | ok _ ht => simp [h2 ht, volCost, Ev.msgs, okMsg, keyNotifier]
      | failed _ _ ht => simp [h2 ht, volCost, Ev.msgs, failMsg, keyNotifier]
      | exhausted _ _ _ _ ht =>
        simp [h2 ht, volCost, Ev.msgs, failMsg, keyNotifier, monMsg, keyMonitor]
      | _ => simp [volCost, Ev.msgs, failMsg, keyNotifier, sendMsg, keyWorkers]
  | ping hk hd h =>
    subst h
    exact ⟨by simp [hh],
      Or.inl (by simp [volCost, Ev.msgs, keyWorkers])⟩
  | progress hk hd h =>
    subst h
    exact ⟨by simp [hh],
      Or.inl (by simp [volCost, Ev.msgs, keyMonitor, tellAllow, oneIf, hk, hd, keyWorkers])⟩
  | workerUnknown _ _ _ h =>
    subst h
    exact ⟨by simp [hh], Or.inl (by simp)⟩
  | eval hk hd hf h =>
    have h1 : tellAllow m = 1 := by simp [tellAllow, oneIf, hk, hd, keyClients]
    refine ⟨by simp [hf.workers], Or.inl ?_⟩
    rw [h1]
    cases h with
    | malformed => simp [volCost, Ev.msgs, keyClients]
    | frozen => simp [volCost, Ev.msgs, keyClients]
    | submit _ _ _ h =>
      cases h <;> simp [volCost, Ev.msgs, keyClients, keyMonitor, monMsg, sendMsg, keyWorkers]
  | stats _ _ h => subst h; exact ⟨by simp, Or.inl (by simp [volCost, Ev.msgs, keyClients])⟩
  | freeze _ _ h => subst h; exact ⟨by simp, Or.inl (by simp [volCost, Ev.msgs, keyClients])⟩
  | unfreeze _ _ h => subst h; exact ⟨by simp, Or.inl (by simp [volCost, Ev.msgs, keyClients])⟩
  | clientUnknown _ _ _ h => subst h; exact ⟨by simp, Or.inl (by simp)⟩
  | other _ h => subst h; exact ⟨by simp, Or.inl (by simp)⟩
  | timer hk hd ht h =>
    have h1 := hi.steps.moved h.script.shape hB
    rw [← h.script.notes] at h1
    have e1 : (ls s 0).reg.card = s.workers.length := by
      show (LawfulQM.reg s.queue).card = _
      rw [← hv.reg_eq]; simp
    have e2 : (ls s' 0).reg.card = s'.workers.length := by
      show (LawfulQM.reg s'.queue).card = _
      rw [← hi.inv.reg_eq]; simp
    rw [e1, e2] at h1
    have h2 : s'.workers.length ≤ s.workers.length := by rw [h.workers]; exact (removeAll_sublist _ _).length_le
    exact ⟨h2.trans (by omega), Or.inr ⟨h2, h1⟩⟩

/-- Requests that enter. -/
def holdGain : Ev → Nat
  | .accept _ => 1
  | .register _ (some _) => 1
  | _ => 0

theorem holdLaws {M : Nat} : WLaws M noteW (fun _ => 0) holdGain where
  say _ := Nat.zero_le _
  drop := Nat.zero_le _
  accept r hc := by simp [noteW, holdGain]
  register0 _ := Nat.zero_le _
  register w r hc := by simp [noteW, holdGain]
  send w r n hc hn := by simp [noteW]
  park r n hc hn := by simp [noteW]
  pull w r n hc hn := by simp [noteW]
  resend w r _ _ := Nat.zero_le _
  done w r n hn := Nat.zero_le _
  failed w r t n hn := Nat.zero_le _
  cancel w r n hn := by simp [noteW]
  expireCur r n hn := Nat.le_refl _
  expireQue r n hc hn := Nat.le_refl _
  expire _ _ _ := Nat.zero_le _
  giveUp _ _ _ _ := Nat.zero_le _

theorem hold_allow {cfg : HConfig} {env : Env} {m : Msg} {s s' : HState Q} {evs : List Ev}
    (hi : StepInfo cfg env m s s' evs) :
    (evs.map holdGain).sum ≤ oneIf "clients" "eval" m + oneIf "workers" "init" m := by
  cases hi.script with
  | init hk hd h =>
    have h1 : oneIf "workers" "init" m = 1 := by simp [oneIf, hk, hd, keyWorkers]
    rw [h1]
    have h2 : ∀ {w cur evs}, RegScript w cur evs → (evs.map holdGain).sum ≤ 1 := by
      intro w cur evs hr
      cases hr <;> cases cur <;> simp [holdGain]
    cases h with
    | short => simp
    | same => simp
    | fresh _ _ _ _ hr => exact (h2 hr).trans (by omega)
    | again _ _ _ _ _ hr =>
      have := h2 hr
      simp only [List.map_cons, List.sum_cons, holdGain]
      omega
  | done hk hd h =>
    refine le_of_eq_of_le (sum_gain_zero ?_) (Nat.zero_le _)
    cases h with
    | unknown => simp
    | short => simp
    | stale => simp
    | report _ _ _ _ _ hd =>
      intro e he
      have hsh := hd.shape e he
      cases e <;> simp_all [DoneEv, holdGain]
  | ping hk hd h => simp [holdGain]
  | progress hk hd h => simp [holdGain]
  | workerUnknown => simp
  | eval hk hd hf h =>
    have h1 : oneIf "clients" "eval" m = 1 := by simp [oneIf, hk, hd, keyClients]
    rw [h1]
    cases h with
    | malformed => simp [holdGain]
    | frozen => simp [holdGain]
    | submit _ _ _ h => cases h <;> simp [holdGain]
  | stats => simp [holdGain]
  | freeze => simp [holdGain]
  | unfreeze => simp [holdGain]
  | clientUnknown => simp
  | timer hk hd ht h =>
    refine le_of_eq_of_le (sum_gain_zero ?_) (Nat.zero_le _)
    intro e he
    have hsh := h.script.shape e he
    cases e <;> simp_all [TimerEv, holdGain]
  | other => simp

/-- How many requests the broker can hold. -/
theorem hold_le {cfg : HConfig} {env : Env} {h : List (Tr Q)} {s : HState Q}
    (hr : Run cfg env h s) :
    heldIn (ls s 0) ≤ came "clients" "eval" h + came "workers" "init" h := by
  refine Run.induct (P := fun h s =>
    heldIn (ls s 0) ≤ came "clients" "eval" h + came "workers" "init" h) ?_ ?_ hr
  · simp [heldIn, ls, HState.init, busy_empty, que_empty]
  · intro h s m s' evs _ _ hl ih _ hi
    have h1 := hi.steps.pot cfg.maxFailures_lt holdLaws hl
    rw [pot_note, pot_note] at h1
    have h2 := hold_allow hi
    simp only [came_snoc]
    omega

/-- How much the monitor may be told. -/
theorem tell_le {cfg : HConfig} {env : Env} {h : List (Tr Q)} {s : HState Q}
    (hr : Run cfg env h s) :
    s.workers.length ≤ came "workers" "init" h ∧
    left "monitor" h ≤ came "clients" "eval" h + came "workers" "done" h
      + came "workers" "progress" h
      + (came "workers" "init" h - s.workers.length)
        * (came "clients" "eval" h + came "workers" "init" h) := by
  refine Run.induct (P := fun h s => s.workers.length ≤ came "workers" "init" h ∧
    left "monitor" h ≤ came "clients" "eval" h + came "workers" "done" h
      + came "workers" "progress" h
      + (came "workers" "init" h - s.workers.length)
        * (came "clients" "eval" h + came "workers" "init" h)) ?_ ?_ hr
  · simp [HState.init, came, left, emitted]
  · intro h s m s' evs hr hv _ ih _ hi
    have hB : heldIn (ls s 0) ≤ came "clients" "eval" h + came "workers" "init" h := hold_le hr
    obtain ⟨h1, h2⟩ := tell_step hv hi hB
    simp only [came_snoc, left_snoc, Tr.outs]
    obtain ⟨i1, i2⟩ := ih
    refine ⟨by omega, ?_⟩
    generalize hA : came "clients" "eval" h + came "workers" "init" h = A at *
    have hA' : came "clients" "eval" h + oneIf "clients" "eval" m +
        (came "workers" "init" h + oneIf "workers" "init" m)
        = A + (oneIf "clients" "eval" m + oneIf "workers" "init" m) := by omega
    rw [hA']
    generalize oneIf "clients" "eval" m + oneIf "workers" "init" m = a
    generalize came "workers" "init" h = I at *
    rcases h2 with h2 | ⟨h2, h3⟩
    · have h4 : (I - s.workers.length) * A
          ≤ (I + oneIf "workers" "init" m - s'.workers.length) * (A + a) :=
        Nat.mul_le_mul (by omega) (by omega)
      simp only [tellAllow] at h2
      omega
    · have h4 : (I - s.workers.length + (s.workers.length - s'.workers.length)) * A
          ≤ (I + oneIf "workers" "init" m - s'.workers.length) * (A + a) :=
        Nat.mul_le_mul (by omega) (by omega)
      have h5 : (s.workers.length - s'.workers.length) * A + s'.workers.length * A
          = s.workers.length * A := by
        rw [← Nat.add_mul, Nat.sub_add_cancel h2]
      rw [Nat.add_mul] at h4
      omega

/-! ## Sums -/

theorem giveAllow_eq (M : Nat) (m : Msg) : giveAllow M m =
    max 1 M * oneIf "clients" "eval" m + oneIf "workers" "init" m + oneIf "workers" "ping" m := rfl

theorem noteAllow_eq (m : Msg) : noteAllow m =
    oneIf "clients" "eval" m + 2 * oneIf "workers" "init" m := rfl

theorem replyAllow_eq (m : Msg) : replyAllow m =
    (if m.key = "clients" then 1 else 0) + oneIf "clients" "eval" m := rfl

theorem sum_giveAllow (M : Nat) (h : List (Tr Q)) :
    (h.map (fun t => giveAllow M t.msg)).sum = max 1 M * came "clients" "eval" h
      + came "workers" "init" h + came "workers" "ping" h := by
  induction h using List.reverseRecOn with
  | nil => simp [came]
  | append_singleton h t ih =>
    simp only [List.map_append, List.map_cons, List.map_nil, List.sum_append, List.sum_cons,
      List.sum_nil, ih, came_snoc, Nat.mul_add]
    have := giveAllow_eq M t.msg
    omega

theorem sum_noteAllow (h : List (Tr Q)) :
    (h.map (fun t => noteAllow t.msg)).sum
      = came "clients" "eval" h + 2 * came "workers" "init" h := by
  induction h using List.reverseRecOn with
  | nil => simp [came]
  | append_singleton h t ih =>
    simp only [List.map_append, List.map_cons, List.map_nil, List.sum_append, List.sum_cons,
      List.sum_nil, ih, came_snoc]
    have := noteAllow_eq t.msg
    omega

theorem sum_replyAllow (h : List (Tr Q)) :
    (h.map (fun t => replyAllow t.msg)).sum
      = arrived "clients" h + came "clients" "eval" h := by
  induction h using List.reverseRecOn with
  | nil => simp [came, arrived]
  | append_singleton h t ih =>
    simp only [List.map_append, List.map_cons, List.map_nil, List.sum_append, List.sum_cons,
      List.sum_nil, ih, came_snoc, arrived_snoc]
    have := replyAllow_eq t.msg
    omega

end Broker
