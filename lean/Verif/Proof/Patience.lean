import Verif.Proof.Limits
import Verif.Proof.Memory

/-!
# A more patient broker

A broker that waits longer for workers, and lets jobs fail more often, loses no worker and gives up
no job as long as a less patient one does not.
-/

set_option linter.unusedSectionVars false
set_option linter.unusedSimpArgs false

namespace Broker

namespace Spec

/-- While the messages are handled no worker is taken from the registry and no job is given up
    because it failed too often. -/
def Unreached {Q : Type} [QueueManager Q] (cfg : HConfig) (env : Env) : HState Q → List Msg → Prop
  | _, [] => True
  | s, m :: ms =>
    match step cfg env m s with
    | .ok _ t => (∀ w ∈ s.workers, w ∈ t.workers) ∧ (∀ o ∈ t.outs, ¬ GivenUp o) ∧
        Unreached cfg env t ms
    | .error _ t => (∀ w ∈ s.workers, w ∈ t.workers) ∧ ∀ o ∈ t.outs, ¬ GivenUp o

/-- Every limit of the second configuration is at least that of the first. -/
structure MorePatient (a b : HConfig) : Prop where
  positive : 1 ≤ a.maxLiveness
  liveness : a.maxLiveness ≤ b.maxLiveness
  interval : a.pingInterval ≤ b.pingInterval
  failures : a.maxFailures ≤ b.maxFailures

end Spec

open QueueManager LawfulQM Spec

variable {Q : Type} [QueueManager Q] [LawfulQM Q]

theorem unreached_head {cfg : HConfig} {env : Env} {s : HState Q} {m : Msg} {ms : List Msg}
    (h : Unreached cfg env s (m :: ms)) :
    (∀ w ∈ s.workers, w ∈ (endState (step cfg env m s)).workers) ∧
      ¬ GivesUp (endState (step cfg env m s)).outs := by
  unfold Unreached at h
  cases hs : step cfg env m s with
  | ok u t =>
    rw [hs] at h
    exact ⟨h.1, fun ⟨o, ho, hg⟩ => h.2.1 o ho hg⟩
  | error e t =>
    rw [hs] at h
    exact ⟨h.1, fun ⟨o, ho, hg⟩ => h.2 o ho hg⟩

/-- The tick of a configuration that takes nobody from the registry. -/
theorem step_tick_none {cfg : HConfig} {env : Env} {m : Msg} {s : HState Q}
    (hn : (s.workers.map (·.addr)).Nodup)
    (hk : ∀ w ∈ s.workers, w ∈ (endState (step cfg env m s)).workers) (hm : m.key = keyTimer)
    {f : String} {rest : List String} {time : Int} (hd : m.data = f :: rest)
    (hf : stoll f = .ok time) :
    ∃ s1, tickWorkers cfg time s.workers { s with outs := [] } = .ok [] s1 := by
  have e : step cfg env m s = processTimer cfg env (f :: rest) { s with outs := [] } := by
    obtain ⟨k, i, d⟩ := m
    simp only at hm hd
    subst hm hd
    rfl
  rw [e] at hk
  exact tick_none (s := { s with outs := [] }) hn hf hk

/-- The outcome of a message under two configurations. -/
inductive Twin (r r' : EStateM.Result Err (HState Q) Unit) : Prop
  | ok {s' t' : HState Q} (h : r = .ok () s') (h' : r' = .ok () t') (hf : s'.forget = t'.forget)
  | error {e : Err} {s' t' : HState Q} (h : r = .error e s') (h' : r' = .error e t')
      (hf : s'.forget = t'.forget)

theorem Twin.of {r r' : EStateM.Result Err (HState Q) Unit}
    (h : mapRes HState.forget r = mapRes HState.forget r') : Twin r r' := by
  cases r with
  | ok u s' =>
    cases r' with
    | ok v t' => injection h with h1 h2; exact .ok rfl rfl h2
    | error e t' => cases h
  | error e s' =>
    cases r' with
    | ok v t' => cases h
    | error e' t' => injection h with h1 h2; subst h1; exact .error rfl rfl h2

theorem forget_outs {s t : HState Q} (h : s.forget = t.forget) : s.outs = t.outs :=
  congrArg (·.outs) h

theorem forget_clear {s t : HState Q} (h : s.forget = t.forget) :
    HState.forget { s with outs := [] } = HState.forget { t with outs := [] } := by
  have := congrArg (fun u : HState Q => { u with outs := [] }) h
  exact this

theorem step_twin {a b : HConfig} {env : Env} {m : Msg} {s t : HState Q} (h : s.forget = t.forget)
    (hg : a.maxFailures < b.maxFailures → ¬ GivesUp (endState (step a env m s)).outs)
    (hg' : b.maxFailures < a.maxFailures → ¬ GivesUp (endState (step b env m t)).outs)
    (ht : m.key = keyTimer → ∀ f rest time, m.data = f :: rest → stoll f = .ok time →
      (∃ s1, tickWorkers a time s.workers { s with outs := [] } = .ok [] s1) ∧
      ∃ t1, tickWorkers b time t.workers { t with outs := [] } = .ok [] t1) :
    Twin (step a env m s) (step b env m t) := by
  rcases request_alike (a := a) (b := b) (env := env) (m := m) (forget_clear h) ht with h1 | h1 | h1
  · exact absurd h1.2 (hg h1.1)
  · exact absurd h1.2 (hg' h1.1)
  · exact .of h1

theorem unreached_same {a b : HConfig} {env : Env} {ms : List Msg} : ∀ {s t : HState Q}, HInv s →
    HInv t → s.forget = t.forget → Unreached a env s ms → Unreached b env t ms →
    transcript a env s ms = transcript b env t ms := by
  induction ms with
  | nil => intros; rfl
  | cons m ms ih =>
    intro s t is it h hs ht
    have h1 := unreached_head hs
    have h2 := unreached_head ht
    have hT := step_twin (a := a) (b := b) (env := env) (m := m) h (fun _ => h1.2) (fun _ => h2.2)
      (fun hk f rest time hd hf => ⟨step_tick_none is.addr_nodup h1.1 hk hd hf,
        step_tick_none it.addr_nodup h2.1 hk hd hf⟩)
    unfold Unreached at hs ht
    unfold transcript
    cases hT with
    | ok e e' hf =>
      rw [e] at hs ⊢
      rw [e'] at ht ⊢
      obtain ⟨_, i1⟩ := step_info is e
      obtain ⟨_, i2⟩ := step_info it e'
      simp only [forget_outs hf, ih i1.inv i2.inv hf hs.2.2 ht.2.2]
    | error e e' hf =>
      rw [e, e']
      simp only [forget_outs hf]

/-! ## Patience -/

/-- How often the counter can be decremented before it is zero; it wraps around at zero. -/
def weight (n : Nat) : Nat := if n = 0 then SZ else n

/-- The second broker, with configuration `b`, will not lose a worker before the first. -/
def Patient (b : HConfig) (s t : HState Q) : Prop :=
  ∀ w ∈ s.workers, s.live w.addr < SZ ∧ t.live w.addr < SZ ∧
    t.timers.getD w 0 ≤ s.timers.getD w 0 + max b.pingInterval 0 ∧
    weight (s.live w.addr) ≤ weight (t.live w.addr) ∧
    (weight (s.live w.addr) = weight (t.live w.addr) → t.timers.getD w 0 ≤ s.timers.getD w 0)

theorem szDec_of_pos {n : Nat} (h : n < SZ) (h0 : n ≠ 0) : szDec n = n - 1 := by
  unfold szDec
  have : n + (SZ - 1) = (n - 1) + SZ := by
    have : 0 < SZ := by decide
    omega
  rw [this, Nat.add_mod_right, Nat.mod_eq_of_lt (by omega)]

theorem szDec_zero' : szDec 0 = SZ - 1 := by decide

theorem szDec_weight {n : Nat} (h : n < SZ) (h0 : szDec n ≠ 0) :
    weight (szDec n) + 1 = weight n := by
  by_cases hn : n = 0
  · subst hn; rw [szDec_zero']; decide
  · rw [szDec_of_pos h hn] at h0 ⊢
    unfold weight
    rw [if_neg h0, if_neg hn]; omega

theorem szDec_eq_zero {n : Nat} (h : n < SZ) (h0 : szDec n = 0) : n = 1 := by
  by_cases hn : n = 0
  · subst hn; rw [szDec_zero'] at h0; exact absurd h0 (by decide)
  · rw [szDec_of_pos h hn] at h0; omega

theorem szDec_lt' (n : Nat) : szDec n < SZ := Nat.mod_lt _ (by decide)

theorem weight_pos (n : Nat) : 1 ≤ weight n := by
  unfold weight; split
  · decide
  · omega

/-- If the first broker expires nobody, the second does not either. -/
theorem Patient.tick {a b : HConfig} (hp : MorePatient a b) {time : Int} {s t s1 t1 : HState Q}
    {ys : List Worker} (hw : s.workers = t.workers) (hn : (s.workers.map (·.addr)).Nodup)
    (h : Patient b s t) (hs : tickWorkers a time s.workers s = .ok [] s1)
    (ht : tickWorkers b time t.workers t = .ok ys t1) : ys = [] := by
  obtain ⟨_, _, h1, _⟩ := wp_ok (wp_tickWorkers (E := fun _ _ => True) hn) hs
  obtain ⟨_, hsub, h2, _⟩ := wp_ok (wp_tickWorkers (E := fun _ _ => True) (hw ▸ hn)) ht
  cases ys with
  | nil => rfl
  | cons y ys =>
    exfalso
    have hy : y ∈ t.workers := hsub.subset (by simp)
    have hy' : y ∈ s.workers := hw ▸ hy
    obtain ⟨l1, l2, _, l4, l5⟩ := h y hy'
    have t1 := h1 y hy'
    have t2 := h2 y hy
    unfold Ticked at t1 t2
    by_cases c2 : t.timers.getD y 0 + time > b.pingInterval
    · rw [if_pos c2] at t2
      have e2 := szDec_eq_zero l2 (t2.2.2.1 (by simp))
      rw [e2] at l4 l5
      have hw1 : weight 1 = 1 := by decide
      rw [hw1] at l4 l5
      have e1 : weight (s.live y.addr) = 1 := by have := weight_pos (s.live y.addr); omega
      have e3 : s.live y.addr = 1 := by
        unfold weight at e1
        split at e1
        · exact absurd e1 (by decide)
        · exact e1
      have hle := l5 e1
      have hi := hp.interval
      rw [if_pos (by omega)] at t1
      have := t1.2.2.2 (by rw [e3]; decide)
      simp at this
    · rw [if_neg c2] at t2
      exact t2.2.2 (by simp)

theorem timer_sub (cfg : HConfig) (env : Env) (d : List String) (s : HState Q) :
    (endState (processTimer cfg env d s)).workers ⊆ s.workers := by
  cases d with
  | nil => exact fun _ h => h
  | cons f rest =>
    cases hf : stoll f with
    | error e => simp only [processTimer, hf, Broker.liftE, Bind.bind, EStateM.bind]; exact fun _ h => h
    | ok time =>
      obtain ⟨xs, s1, e1, f1⟩ := tick_forget cfg time s.workers s
      rw [timer_eq hf e1]
      have hw : s1.workers = s.workers := congrArg (·.workers) f1
      rw [← hw]
      exact finish_sub cfg env xs s1

/-- A worker that was not registered before starts with nothing. -/
theorem step_fresh {cfg : HConfig} {env : Env} {m : Msg} {s s' : HState Q}
    (hs : step cfg env m s = .ok () s') {w : Worker} (hw : w ∈ s'.workers) (hn : w ∉ s.workers) :
    s'.live w.addr = 0 ∧ s'.timers.getD w 0 = 0 := by
  have hrs := step_rs hs
  have e1 : s'.workers = (s.rs.step cfg env m).workers := congrArg RState.workers hrs
  have e2 : s'.timers = (s.rs.step cfg env m).timers := congrArg RState.timers hrs
  have e3 : s'.live = (s.rs.step cfg env m).live := congrArg RState.live hrs
  rw [e1] at hw
  rw [e2, e3]
  have hreg : ∀ (p : RState) (i g : String) (h : Headers) (x : List String), w ∉ p.workers →
      w ∈ (p.register env i g h x).workers → (p.register env i g h x).live w.addr = 0 ∧
        (p.register env i g h x).timers.getD w 0 = 0 := by
    intro p i g h x hp
    unfold RState.register
    cases hc : Worker.create (env.alloc p.allocs p.addrs) i g h (initExtra x "" none).1 with
    | error e => exact fun hq => absurd hq hp
    | ok v =>
      intro hq
      have hv : w = v := by simpa [hp] using hq
      subst hv
      have ha : w.addr = env.alloc p.allocs p.addrs := (Worker.create_fields hc).1
      have hna : w.addr ∉ p.timers.map (·.1.addr) := by
        rw [ha]
        exact fun hm => env.alloc_fresh p.allocs p.addrs (List.mem_append_right _ hm)
      refine ⟨by simp [upd, ha], ?_⟩
      simp only [WMap.getD, WMap.find_emplace_self hna, Option.getD_some]
  by_cases hkt : m.key = keyTimer
  · exfalso
    have e : step cfg env m s = processTimer cfg env m.data { s with outs := [] } := by
      obtain ⟨k, i, d⟩ := m
      simp only at hkt
      subst hkt
      rfl
    have := timer_sub (Q := Q) cfg env m.data { s with outs := [] }
    rw [← e, hs] at this
    rw [← e1] at hw
    exact hn (this hw)
  · have hp : w ∉ (s.rs.heard cfg m.identity).workers := by
      rw [RState.heard_workers]; exact hn
    unfold RState.step at hw ⊢
    by_cases h1 : m.key = keyWorkers
    · simp only [if_pos h1] at hw ⊢
      by_cases h2 : m.data.head? = some "init"
      · simp only [if_pos h2] at hw ⊢
        unfold RState.init' at hw ⊢
        split at hw
        · split at hw
          · split at hw
            · exact absurd hw hp
            · rename_i hne
              rw [if_neg hne]
              exact hreg _ _ _ _ _ hp hw
          · exact hreg _ _ _ _ _ hp hw
        · exact absurd hw hp
      · simp only [if_neg h2] at hw
        exact absurd hw hp
    · simp only [if_neg h1] at hw ⊢
      exfalso
      apply hn
      split at hw
      · split at hw
        · exact hw
        · split at hw <;> exact hw
      · exact hw

/-- Patience is preserved by a message both brokers handle without losing a worker. -/
theorem Patient.step {a b : HConfig} (hp : MorePatient a b) {env : Env} {m : Msg}
    {s t s' t' : HState Q} (is : HInv s) (it : HInv t) (h : Patient b s t)
    (hw : s.workers = t.workers) (hw' : s'.workers = t'.workers)
    (hs : step a env m s = .ok () s') (ht : step b env m t = .ok () t') :
    Patient b s' t' := by
  intro w hx
  by_cases hold : w ∈ s.workers
  · obtain ⟨l1, l2, l3, l4, l5⟩ := h w hold
    have b1 := step_beat is hs hold
    have b2 := step_beat it ht (hw ▸ hold)
    have hnt : ¬ (keyWorkers = keyTimer) := by decide
    cases b1 with
    | heard k1 f1 _ t1 v1 =>
      cases b2 with
      | heard k2 f2 _ t2 v2 =>
        rw [t1, t2, v1, v2]
        refine ⟨a.maxLiveness_lt, b.maxLiveness_lt, by omega, ?_, fun _ => le_refl _⟩
        have := hp.positive
        have := hp.liveness
        unfold weight
        rw [if_neg (by omega), if_neg (by omega)]
        exact hp.liveness
      | tick k2 => exact absurd (k1.symm.trans k2) hnt
      | still _ n2 => exact absurd ⟨k1, hw ▸ f1⟩ n2
    | @tick f1 z1 time k1 d1 r1 q1 =>
      cases b2 with
      | heard k2 => exact absurd (k2.symm.trans k1) hnt
      | still k2 => exact absurd k1 k2
      | tick k2 d2 r2 q2 =>
        rw [d1] at d2
        cases d2
        rw [r1] at r2
        cases r2
        have hx2 : w ∈ t'.workers := hw' ▸ hx
        have hi := hp.interval
        unfold Ticked at q1 q2
        by_cases c1 : s.timers.getD w 0 + time > a.pingInterval
        · rw [if_pos c1] at q1
          have n1 : szDec (s.live w.addr) ≠ 0 := fun hc => q1.2.2.2 hc hx
          have w1 := szDec_weight l1 n1
          rw [q1.1, q1.2.1]
          by_cases c2 : t.timers.getD w 0 + time > b.pingInterval
          · rw [if_pos c2] at q2
            have n2 : szDec (t.live w.addr) ≠ 0 := fun hc => q2.2.2.2 hc hx2
            have w2 := szDec_weight l2 n2
            rw [q2.1, q2.2.1]
            exact ⟨szDec_lt' _, szDec_lt' _, by omega, by omega, fun _ => le_refl _⟩
          · rw [if_neg c2] at q2
            rw [q2.1, q2.2.1]
            exact ⟨szDec_lt' _, l2, by omega, by omega, fun hc => by omega⟩
        · rw [if_neg c1] at q1
          rw [q1.1, q1.2.1]
          by_cases c2 : t.timers.getD w 0 + time > b.pingInterval
          · rw [if_pos c2] at q2
            have n2 : szDec (t.live w.addr) ≠ 0 := fun hc => q2.2.2.2 hc hx2
            have w2 := szDec_weight l2 n2
            rw [q2.1, q2.2.1]
            have hne : weight (s.live w.addr) ≠ weight (t.live w.addr) := by
              intro hc
              have := l5 hc
              omega
            exact ⟨l1, szDec_lt' _, by omega, by omega, fun _ => by omega⟩
          · rw [if_neg c2] at q2
            rw [q2.1, q2.2.1]
            exact ⟨l1, l2, by omega, l4, fun hc => by have := l5 hc; omega⟩
    | still k1 n1 _ t1 v1 =>
      cases b2 with
      | heard k2 f2 => exact absurd ⟨k2, hw ▸ f2⟩ n1
      | tick k2 => exact absurd k2 k1
      | still _ _ _ t2 v2 =>
        rw [t1, t2, v1, v2]
        exact ⟨l1, l2, l3, l4, l5⟩
  · obtain ⟨v1, t1⟩ := step_fresh hs hx hold
    obtain ⟨v2, t2⟩ := step_fresh ht (hw' ▸ hx) (hw ▸ hold)
    rw [v1, v2, t1, t2]
    exact ⟨by decide, by decide, by omega, le_refl _, fun _ => le_refl _⟩

theorem patient_same {a b : HConfig} (hp : MorePatient a b) {env : Env} {ms : List Msg} :
    ∀ {s t : HState Q}, HInv s → HInv t → s.forget = t.forget → Patient b s t →
    Unreached a env s ms →
    Unreached b env t ms ∧ transcript a env s ms = transcript b env t ms := by
  induction ms with
  | nil => intros; exact ⟨trivial, rfl⟩
  | cons m ms ih =>
    intro s t is it h hP hs
    have h1 := unreached_head hs
    have hw := forget_workers h
    have hT := step_twin (a := a) (b := b) (env := env) (m := m) h (fun _ => h1.2)
      (fun hlt => absurd hp.failures (by omega))
      (fun hk f rest time hd hf => by
        obtain ⟨s1, e1⟩ := step_tick_none is.addr_nodup h1.1 hk hd hf
        obtain ⟨ys, t1, e2, _⟩ := tick_forget b time t.workers { t with outs := [] }
        have := Patient.tick hp (s := { s with outs := [] }) (t := { t with outs := [] }) hw
          is.addr_nodup hP e1 e2
        subst this
        exact ⟨⟨s1, e1⟩, t1, e2⟩)
    unfold Unreached at hs ⊢
    unfold transcript
    cases hT with
    | ok e e' hf =>
      rw [e] at hs ⊢
      rw [e'] 
      obtain ⟨_, i1⟩ := step_info is e
      obtain ⟨_, i2⟩ := step_info it e'
      have hP' := hP.step hp is it hw (forget_workers hf) e e'
      obtain ⟨j1, j2⟩ := ih i1.inv i2.inv hf hP' hs.2.2
      simp only [forget_outs hf, j2]
      refine ⟨⟨?_, ?_, j1⟩, trivial⟩
      · rw [← hw, ← forget_workers hf]; exact hs.1
      · rw [← forget_outs hf]; exact hs.2.1
    | error e e' hf =>
      rw [e] at hs ⊢
      rw [e']
      simp only [forget_outs hf]
      refine ⟨⟨?_, ?_⟩, trivial⟩
      · rw [← hw, ← forget_workers hf]; exact hs.1
      · rw [← forget_outs hf]; exact hs.2

end Broker
