import Verif.Proof.Removals

/-!
# The unit of time

Ticks and ping interval told in another unit.
-/

set_option linter.unusedSectionVars false
set_option linter.unusedSimpArgs false

namespace Broker

namespace Spec

/-- The second message is the first one; if the timer reports a time then `k` times that. -/
def Rescaled (k : Int) (m m' : Msg) : Prop :=
  (m = m' ∧ ∀ x, ¬ IsTick m x) ∨ ∃ x, IsTick m x ∧ IsTick m' (k * x)

/-- The second configuration gives the ping interval in a unit `k` times as fine. -/
structure FinerUnit (k : Int) (a b : HConfig) : Prop where
  interval : b.pingInterval = k * a.pingInterval
  liveness : b.maxLiveness = a.maxLiveness
  failures : b.maxFailures = a.maxFailures

end Spec

open QueueManager LawfulQM Spec

variable {Q : Type} [QueueManager Q]

/-- Times in another unit. -/
def WMap.times (k : Int) (m : WMap Int) : WMap Int := m.map fun e => (e.1, k * e.2)

theorem WMap.times_put (k : Int) (w : Worker) (v : Int) (m : WMap Int) :
    WMap.times k (m.put w v) = WMap.put w (k * v) (WMap.times k m) := by
  induction m with
  | nil => rfl
  | cons e t ih =>
    obtain ⟨x, u⟩ := e
    simp only [WMap.times, List.map_cons]
    unfold WMap.put
    split
    · rfl
    · split
      · rfl
      · exact congrArg _ ih

theorem WMap.times_emplace (k : Int) (w : Worker) (v : Int) (m : WMap Int) :
    WMap.times k (m.emplace w v) = WMap.emplace w (k * v) (WMap.times k m) := by
  induction m with
  | nil => rfl
  | cons e t ih =>
    obtain ⟨x, u⟩ := e
    simp only [WMap.times, List.map_cons]
    unfold WMap.emplace
    split
    · rfl
    · split
      · rfl
      · exact congrArg _ ih

theorem WMap.times_getD (k : Int) (w : Worker) (m : WMap Int) :
    (WMap.times k m).getD w 0 = k * m.getD w 0 := by
  unfold WMap.getD
  induction m with
  | nil => exact (Int.mul_zero k).symm
  | cons e t ih =>
    obtain ⟨x, u⟩ := e
    simp only [WMap.times, List.map_cons]
    unfold WMap.find
    split
    · rfl
    · exact ih

/-- The registry with times in another unit. -/
def RState.times (k : Int) (p : RState) : RState := { p with timers := WMap.times k p.timers }

theorem RState.times_addrs (k : Int) (p : RState) : (p.times k).addrs = p.addrs := by
  simp [RState.addrs, RState.times, WMap.times, Function.comp_def]

theorem RState.times_heard {k : Int} {a b : HConfig} (h : FinerUnit k a b) (i : String)
    (p : RState) : (p.times k).heard b i = (p.heard a i).times k := by
  unfold RState.heard
  show (match regFind i p.workers with | none => _ | some w => _) = _
  cases regFind i p.workers with
  | none => rfl
  | some w => simp only [RState.times, WMap.times_put, Int.mul_zero, h.liveness]

theorem RState.times_register (k : Int) (env : Env) (i g : String) (hs : Headers)
    (x : List String) (p : RState) :
    (p.times k).register env i g hs x = (p.register env i g hs x).times k := by
  unfold RState.register
  rw [RState.times_addrs]
  show (match Worker.create (env.alloc p.allocs p.addrs) i g hs (initExtra x "" none).1 with
    | .error _ => _ | .ok w => _) = _
  cases Worker.create (env.alloc p.allocs p.addrs) i g hs (initExtra x "" none).1 with
  | error e => rfl
  | ok w => simp only [RState.times, WMap.times_emplace, Int.mul_zero]

theorem RState.times_init (k : Int) (env : Env) (i : String) (data : List String) (p : RState) :
    (p.times k).init' env i data = (p.init' env i data).times k := by
  unfold RState.init'
  match data with
  | [] => rfl
  | [_] => rfl
  | _ :: g :: rest =>
    show (match regFind i p.workers with | some w => _ | none => _) = _
    cases regFind i p.workers with
    | none => exact RState.times_register ..
    | some w =>
      simp only
      split
      · rfl
      · exact RState.times_register ..

theorem RState.times_tick1 {k : Int} (hk : 0 < k) {a b : HConfig} (h : FinerUnit k a b) (x : Int)
    (w : Worker) (p : RState) : (p.times k).tick1 b (k * x) w =
      ((p.tick1 a x w).1, (p.tick1 a x w).2.times k) := by
  unfold RState.tick1
  have e : (p.times k).timers.getD w 0 + k * x = k * (p.timers.getD w 0 + x) := by
    rw [Int.mul_add]; exact congrArg (· + k * x) (WMap.times_getD k w p.timers)
  have hc : k * (p.timers.getD w 0 + x) > b.pingInterval ↔
      p.timers.getD w 0 + x > a.pingInterval := by
    rw [h.interval]; exact Int.mul_lt_mul_left hk
  rw [e]
  by_cases c : p.timers.getD w 0 + x > a.pingInterval
  · rw [if_pos (hc.2 c), if_pos c]
    simp only [RState.times, WMap.times_put, Int.mul_zero]
    rfl
  · rw [if_neg (fun g => c (hc.1 g)), if_neg c]
    simp only [RState.times, WMap.times_put]

theorem RState.times_tick {k : Int} (hk : 0 < k) {a b : HConfig} (h : FinerUnit k a b) (x : Int) :
    ∀ (ws : List Worker) (p : RState), (p.times k).tick b (k * x) ws =
      ((p.tick a x ws).1, (p.tick a x ws).2.times k)
  | [], _ => rfl
  | w :: ws, p => by
    simp only [RState.tick, RState.times_tick1 hk h x w p, RState.times_tick hk h x ws]

theorem RState.times_step {k : Int} (hk : 0 < k) {a b : HConfig} (h : FinerUnit k a b) (env : Env)
    {m m' : Msg} (hm : Rescaled k m m') (p : RState) :
    (p.times k).step b env m' = (p.step a env m).times k := by
  rcases hm with ⟨rfl, hm⟩ | ⟨x, h1, h2⟩
  · unfold RState.step
    split
    · split
      · rw [RState.times_heard h, RState.times_init]
      · rw [RState.times_heard h]
    · split
      · split
        · rfl
        · split <;> rfl
      · split
        · rename_i hk'
          unfold RState.timer
          cases hd : m.data with
          | nil => rfl
          | cons f rest =>
            simp only
            cases hf : stoll f with
            | error e => rfl
            | ok x => exact absurd ⟨hk', f, rest, hd, (stoll_iff _ _).1 hf⟩ (hm x)
        · rfl
  · obtain ⟨hk1, f, rest, hd, hx⟩ := h1
    obtain ⟨hk2, f', rest', hd', hx'⟩ := h2
    have hx := (stoll_iff _ _).2 hx
    have hx' := (stoll_iff _ _).2 hx'
    have e1 : keyTimer ≠ keyWorkers := by decide
    have e2 : keyTimer ≠ keyClients := by decide
    simp only [RState.step, hk1, hk2, if_neg e1, if_neg e2, if_true, hd, hd', RState.timer, hx, hx']
    rw [show (p.times k).workers = p.workers from rfl, RState.times_tick hk h]
    rfl

variable [LawfulQM Q]

theorem tick_shape' (c : HConfig) (env : Env) {m : Msg} {x : Int} (u : HState Q)
    (hm : IsTick m x) : ∃ u1, step c env m u =
        finishTick c env (u.rs.tick c x u.workers).1 u1 ∧
      u1.forget = { HState.forget { u with outs := [] } with
        timers := u.workers.foldl (fun m w => m.put w 0) u.forget.timers } := by
  obtain ⟨hk, f, rest, hd, hx⟩ := hm
  have hx := (stoll_iff _ _).2 hx
  obtain ⟨xs, u1, e1, f1⟩ := tick_forget c x u.workers { u with outs := [] }
  have hxs := (wp_ok (rs_tickWorkers c x u.workers { u with outs := [] }) e1).1
  have e : step c env m u = processTimer c env (f :: rest) { u with outs := [] } := by
    obtain ⟨k, i, d⟩ := m
    simp only at hk hd
    subst hk hd
    rfl
  refine ⟨u1, ?_, f1⟩
  rw [e, timer_eq hx e1, hxs]
  rfl

theorem units_step {k : Int} (hk : 0 < k) {a b : HConfig} (h : FinerUnit k a b) {env : Env}
    {m m' : Msg} (hm : Rescaled k m m') {s t : HState Q} (hf : s.forget = t.forget)
    (hr : t.rs = s.rs.times k) : Twin (step a env m s) (step b env m' t) := by
  have hc : Concur (apart a b) (step a env m s) (step b env m' t) := by
    rcases hm with ⟨rfl, hm⟩ | ⟨x, h1, h2⟩
    · refine request_alike (forget_clear hf) fun hk f rest time hd hx => ?_
      exact absurd ⟨hk, f, rest, hd, (stoll_iff _ _).1 hx⟩ (hm time)
    · obtain ⟨s1, e1, f1⟩ := tick_shape' a env s h1
      obtain ⟨t1, e2, f2⟩ := tick_shape' b env t h2
      have hw := forget_workers hf
      have hxs : (t.rs.tick b (k * x) t.workers).1 = (s.rs.tick a x s.workers).1 := by
        rw [hr, RState.times_tick hk h, hw]
      rw [e1, e2, hxs]
      refine (Unmoved.finish a b env _).rel s1 t1 ?_
      rw [f1, f2, forget_clear hf, hw, hf]
  rcases hc with hc | hc | hc
  · exact absurd hc.1 (by show ¬ (_ < _); rw [h.failures]; exact Nat.lt_irrefl _)
  · exact absurd hc.1 (by show ¬ (_ < _); rw [h.failures]; exact Nat.lt_irrefl _)
  · exact .of hc

theorem units_same {k : Int} (hk : 0 < k) {a b : HConfig} (h : FinerUnit k a b) {env : Env}
    {ms ms' : List Msg} (hm : List.Forall₂ (Rescaled k) ms ms') : ∀ {s t : HState Q},
    s.forget = t.forget → t.rs = s.rs.times k →
    transcript a env s ms = transcript b env t ms' := by
  induction hm with
  | nil => intros; rfl
  | @cons m m' ms ms' h1 _ ih =>
    intro s t hf hr
    unfold transcript
    cases units_step (env := env) hk h h1 hf hr with
    | ok e e' hf' =>
      rw [e, e']
      have hr' := step_rs e'
      rw [hr, RState.times_step hk h env h1, ← step_rs e] at hr'
      simp only [forget_outs hf', ih hf' hr']
    | error e e' hf' =>
      rw [e, e']
      simp only [forget_outs hf']

end Broker
