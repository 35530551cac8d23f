import Verif.Proof.Ticks
import Verif.Props.Heard

/-!
# C113: how finely time is told cannot be observed
-/

set_option linter.unusedSectionVars false

namespace Broker

namespace Spec

/-- After this much more time no worker has been silent for more than the ping interval. -/
def Quiet {Q : Type} (cfg : HConfig) (s : HState Q) (a : Int) : Prop :=
  ∀ w ∈ s.workers, s.timers.getD w 0 + a ≤ cfg.pingInterval

/-- A message of a client other than the query for statistics. -/
def OfClient (m : Msg) : Prop := m.key = "clients" ∧ m.data.head? ≠ some "get-runtime-stats"

instance (m : Msg) : Decidable (OfClient m) := by unfold OfClient; exact inferInstance

/-- What is sent and how it ends, without the messages nothing is sent for. -/
def sent (l : List (List Msg × Option Err)) : List (List Msg × Option Err) :=
  l.filter fun x => decide (x ≠ ([], none))

end Spec

section
variable {Q : Type} [QueueManager Q] [LawfulQM Q]

/-- The second state is the first one with more time told to the workers. -/
structure Later (a : Int) (s u : HState Q) : Prop where
  eq : ({ u with outs := [] } : HState Q) =
    { s with timers := s.timers.late a (s.workers.map (·.addr)), stats := u.stats, outs := [] }
  evaluated : u.stats.evaluated = s.stats.evaluated
  failed : u.stats.failed = s.stats.failed

theorem Later.refl (s : HState Q) : Later 0 s s := ⟨by rw [WMap.late_zero], rfl, rfl⟩

theorem Later.quiet {cfg : HConfig} {env : Env} {h : List (Tr Q)} {s u : HState Q}
    (hr : Run cfg env h s) {A a : Int} (hl : Later A s u) {p : Msg} (hp : Spec.IsTick p a)
    (hq : Spec.Quiet cfg s (A + a)) :
    ∃ u', step cfg env p u = .ok () u' ∧ u'.outs = [] ∧ Later (A + a) s u' := by
  obtain ⟨hk, f, rest, hd, hf⟩ := hp
  have hf := (stoll_iff f a).2 hf
  have hk : p.key = keyTimer := hk
  have h1 : p.key ≠ keyWorkers := by rw [hk]; decide
  have h2 : p.key ≠ keyClients := by rw [hk]; decide
  have hn := hr.inv.1.addr_nodup
  have hkeys := WMap.late_keys A (s.workers.map (·.addr)) s.timers
  have hsorted := WMap.sorted_of_keys hkeys hr.timed.sorted
  unfold step onRequest processTimer
  simp only [if_neg h1, if_neg h2, if_pos hk, hd, hf, hl.eq, liftE, Bind.bind, EStateM.bind,
    Pure.pure, EStateM.pure, MonadState.get, getThe, MonadStateOf.get, EStateM.get]
  rw [tickWorkers_quiet s.workers hn hsorted
    (fun w hw => by rw [hkeys]; exact hr.timed.mem w hw)
    (fun w hw => by
      have e := WMap.getD_late (a := A) (as := s.workers.map (·.addr)) (m := s.timers)
        (List.mem_map_of_mem hw) (hr.timed.mem w hw) hr.timed.sorted
      have := hq w hw
      show (s.timers.late A (s.workers.map (·.addr))).getD w 0 + a ≤ cfg.pingInterval
      omega)]
  simp only [expireWorkers, Pure.pure, EStateM.pure, WMap.late_add]
  generalize hx : ({ s with timers := s.timers.late (A + a) (s.workers.map (·.addr)), stats := u.stats, outs := [] } : HState Q) = x
  have hi : HInv x := by
    subst hx
    exact ⟨hr.inv.1.qinv, hr.inv.1.reg_eq, hr.inv.1.busyCan⟩
  have hw := wp_updateGauges hi (E := fun _ _ => False)
  unfold wp at hw
  cases hg : updateGauges x with
  | error e t => rw [hg] at hw; exact hw.elim
  | ok y t =>
    rw [hg] at hw
    obtain ⟨h3, h4⟩ := hw
    refine ⟨t, rfl, ?_, ?_, ?_, ?_⟩
    · rw [h3, ← hx]
    · rw [h3, ← hx]
    · rw [h4.evaluated, ← hx]; exact hl.evaluated
    · rw [h4.failed, ← hx]; exact hl.failed

theorem Later.order {cfg : HConfig} {env : Env} {s u : HState Q} {A : Int} (hl : Later A s u)
    {m : Msg} (hm : Spec.OfClient m) :
    (∃ t t', step cfg env m s = .ok () t ∧ step cfg env m u = .ok () t' ∧ t'.outs = t.outs ∧
        Later A t t' ∧ t.timers = s.timers ∧ t.workers = s.workers) ∨
      ∃ e t t', step cfg env m s = .error e t ∧ step cfg env m u = .error e t' ∧ t'.outs = t.outs := by
  obtain ⟨hk, hd⟩ := hm
  have hk : m.key = keyClients := hk
  have h1 : m.key ≠ keyWorkers := by rw [hk]; decide
  have hc : ∀ b, OComm (Q := Q) b (onRequest cfg env m) := by
    intro b t
    unfold onRequest
    simp only [if_neg h1, if_pos hk]
    cases hmd : m.data with
    | nil => rfl
    | cons c _ =>
      rw [hmd] at hd
      exact OComm.client b env m.identity _ (fun h => hd (by rw [h]; rfl)) t
  have h2 := hc (s.timers.late A (s.workers.map (·.addr)), u.stats) { s with outs := [] }
  rw [show HState.setClock (s.timers.late A (s.workers.map (·.addr)), u.stats)
    ({ s with outs := [] } : HState Q) = { u with outs := [] } from hl.eq.symm] at h2
  have h3 : step cfg env m u = mapRes (·.setClock (s.timers.late A (s.workers.map (·.addr)), u.stats))
    (step cfg env m s) := h2
  cases hs : step cfg env m s with
  | error e t =>
    rw [hs] at h3
    exact .inr ⟨e, t, _, rfl, h3, rfl⟩
  | ok x t =>
    rw [hs] at h3
    obtain ⟨h4, h5⟩ := OComm.keeps hc hs
    have h6 : t.workers = s.workers := by
      have e : t.workers = (s.rs.step cfg env m).workers := by rw [← step_rs hs]; rfl
      rw [e]
      unfold RState.step
      rw [if_neg h1, if_pos hk]
      split
      · rfl
      · split <;> rfl
    refine .inl ⟨t, _, rfl, h3, rfl, ⟨?_, ?_, ?_⟩, h4, h6⟩
    · simp only [HState.setClock, h4, h6]
    · show u.stats.evaluated = t.stats.evaluated
      rw [h5]; exact hl.evaluated
    · show u.stats.failed = t.stats.failed
      rw [h5]; exact hl.failed

theorem Later.tick {cfg : HConfig} {env : Env} {h : List (Tr Q)} {s u : HState Q}
    (hr : Run cfg env h s) {A b : Int} (hl : Later A s u) {q r : Msg} (hq : Spec.IsTick q b)
    (hr' : Spec.IsTick r (A + b)) (ms : List Msg) :
    transcript cfg env u (q :: ms) = transcript cfg env s (r :: ms) := by
  obtain ⟨hk, f, fs, hd, hf⟩ := hq
  obtain ⟨hk', g, gs, hd', hg⟩ := hr'
  have hf := (stoll_iff f b).2 hf
  have hg := (stoll_iff g _).2 hg
  have hk : q.key = keyTimer := hk
  have hk' : r.key = keyTimer := hk'
  have e1 : ∀ (m : Msg), m.key = keyTimer → ∀ x : HState Q,
      step cfg env m x = processTimer cfg env m.data { x with outs := [] } := by
    intro m hm x
    have h1 : m.key ≠ keyWorkers := by rw [hm]; decide
    have h2 : m.key ≠ keyClients := by rw [hm]; decide
    unfold step onRequest
    simp only [if_neg h1, if_neg h2, if_pos hm]
  have key := timer_sum (cfg := cfg) (env := env) (fs := fs) (gs := gs) hf hg (o := u.stats)
    (s := { s with outs := [] }) hr.inv.1.addr_nodup hr.timed.sorted hr.timed.mem hl.evaluated hl.failed
  rw [show ({ ({ s with outs := [] } : HState Q) with
      timers := ({ s with outs := [] } : HState Q).timers.late A
        (({ s with outs := [] } : HState Q).workers.map (·.addr)), stats := u.stats } : HState Q) =
      { u with outs := [] } from hl.eq.symm, ← hd, ← hd', ← e1 q hk, ← e1 r hk'] at key
  rcases key with ⟨t, h1, h2⟩ | ⟨e, t, t', h1, h2, h3⟩
  · simp only [transcript, h1, h2]
  · simp only [transcript, h1, h2, h3]

theorem Later.orders {cfg : HConfig} {env : Env} {l : List Msg} (hl : ∀ m ∈ l, Spec.OfClient m)
    {q r : Msg} {A b : Int} (hq : Spec.IsTick q b) (hr' : Spec.IsTick r (A + b)) (ms : List Msg)
    {h : List (Tr Q)} {s u : HState Q} (hr : Run cfg env h s) (hsu : Later A s u) :
    transcript cfg env u (l ++ q :: ms) = transcript cfg env s (l ++ r :: ms) := by
  induction l generalizing h s u with
  | nil => exact hsu.tick hr hq hr' ms
  | cons m l ih =>
    rcases hsu.order (cfg := cfg) (env := env) (hl m (List.mem_cons_self ..)) with
      ⟨t, t', h1, h2, h3, h4, -, -⟩ | ⟨e, t, t', h1, h2, h3⟩
    · simp only [List.cons_append, transcript, h1, h2, h3]
      rw [ih (fun m hm => hl m (List.mem_cons_of_mem _ hm)) (hr.snoc h1) h4]
    · simp only [List.cons_append, transcript, h1, h2, h3]

/-- **C113.**  The time told by a tick can be told by the next one instead, if the first one takes no
    worker beyond the ping interval and there is nothing but orders of clients between them: the first
    tick is answered with nothing, and all other messages are answered as before. -/
theorem C113_merge {cfg : HConfig} {env : Env} {h : List (Tr Q)} {s : HState Q}
    (hr : Run cfg env h s) {p q r : Msg} {a b : Int} (hp : Spec.IsTick p a) (hq : Spec.IsTick q b)
    (hr' : Spec.IsTick r (a + b)) (hs : Spec.Quiet cfg s a) {l : List Msg}
    (hl : ∀ m ∈ l, Spec.OfClient m) (ms : List Msg) :
    transcript cfg env s (p :: (l ++ q :: ms)) = ([], none) :: transcript cfg env s (l ++ r :: ms) := by
  obtain ⟨u, h1, h2, h3⟩ := (Later.refl s).quiet (env := env) hr hp (by rw [Int.zero_add]; exact hs)
  rw [Int.zero_add] at h3
  simp only [transcript, h1, h2]
  rw [Later.orders hl hq hr' ms hr h3]

theorem sent_cons (x : List Msg × Option Err) {k k' : List (List Msg × Option Err)}
    (h : Spec.sent k = Spec.sent k') : Spec.sent (x :: k) = Spec.sent (x :: k') := by
  unfold Spec.sent at h ⊢
  simp only [List.filter_cons, h]

theorem Later.mixed {cfg : HConfig} {env : Env} {l : List Msg}
    (hl : ∀ m ∈ l, Spec.OfClient m ∨ m.key = "timer") {q r : Msg} {A B b : Int} (hB : Spec.Elapsed l B)
    (hq : Spec.IsTick q b) (hr' : Spec.IsTick r (A + B + b)) (ms : List Msg)
    {h : List (Tr Q)} {s u : HState Q} (hr : Run cfg env h s) (hsu : Later A s u)
    (hquiet : ∀ l' T, l' <+: l → Spec.Elapsed l' T → Spec.Quiet cfg s (A + T)) :
    Spec.sent (transcript cfg env u (l ++ q :: ms)) =
      Spec.sent (transcript cfg env s (l.filter (fun m => m.key ≠ "timer") ++ r :: ms)) := by
  induction l generalizing A B h s u with
  | nil =>
    cases hB
    rw [Int.add_zero] at hr'
    exact congrArg Spec.sent (hsu.tick hr hq hr' ms)
  | cons m l ih =>
    have hl' : ∀ x ∈ l, Spec.OfClient x ∨ x.key = "timer" := fun x hx => hl x (List.mem_cons_of_mem _ hx)
    rcases hB with ⟨hk, hB⟩ | ⟨t, T, hm, hB, rfl⟩
    · have hm := (hl m (List.mem_cons_self ..)).resolve_right hk
      have hpre : ∀ l' T, l' <+: l → Spec.Elapsed l' T → Spec.Quiet cfg s (A + T) := fun l' T h1 h2 =>
        hquiet (m :: l') T (List.prefix_cons_inj m |>.2 h1) (.inl ⟨hk, h2⟩)
      rw [List.filter_cons_of_pos (by simpa using hk)]
      rcases hsu.order (cfg := cfg) (env := env) hm with
        ⟨t, t', h1, h2, h3, h4, h5, h6⟩ | ⟨e, t, t', h1, h2, h3⟩
      · simp only [List.cons_append, transcript, h1, h2, h3]
        refine sent_cons _ (ih hl' hB hr' (hr.snoc h1) h4 fun l' T h7 h8 => ?_)
        unfold Spec.Quiet
        rw [h5, h6]
        exact hpre l' T h7 h8
      · simp only [List.cons_append, transcript, h1, h2, h3]
    · obtain ⟨u', h1, h2, h3⟩ := hsu.quiet (env := env) hr hm
        (hquiet [m] t ⟨l, rfl⟩ (.inr ⟨t, 0, hm, rfl, by omega⟩))
      rw [List.filter_cons_of_neg (by simp [hm.1])]
      simp only [List.cons_append, transcript, h1, h2]
      rw [show Spec.sent (([], none) :: transcript cfg env u' (l ++ q :: ms)) =
        Spec.sent (transcript cfg env u' (l ++ q :: ms)) from rfl]
      refine ih hl' hB (by rw [show A + t + T + b = A + (t + T) + b by omega]; exact hr') hr h3
        fun l' T' h4 h5 => ?_
      rw [Int.add_assoc]
      exact hquiet (m :: l') (t + T') (List.prefix_cons_inj m |>.2 h4) (.inr ⟨t, T', hm, h5, rfl⟩)

/-- **C113.**  Any number of ticks that take no worker beyond the ping interval, mixed with orders of
    clients, can be left out if the next tick tells all of the time: the same is sent in the same order,
    now and later. -/
theorem C113_sum {cfg : HConfig} {env : Env} {h : List (Tr Q)} {s : HState Q}
    (hr : Run cfg env h s) {l : List Msg} (hl : ∀ m ∈ l, Spec.OfClient m ∨ m.key = "timer") {q r : Msg}
    {A b : Int} (hA : Spec.Elapsed l A)
    (hquiet : ∀ l' T, l' <+: l → Spec.Elapsed l' T → Spec.Quiet cfg s T)
    (hq : Spec.IsTick q b) (hr' : Spec.IsTick r (A + b)) (ms : List Msg) :
    Spec.sent (transcript cfg env s (l ++ q :: ms)) =
      Spec.sent (transcript cfg env s (l.filter (fun m => m.key ≠ "timer") ++ r :: ms)) :=
  (Later.refl s).mixed hl hA hq (by rw [Int.zero_add]; exact hr') ms hr
    (fun l' T h1 h2 => by rw [Int.zero_add]; exact hquiet l' T h1 h2)

end

/-! ## Concrete cases -/

theorem isTick_of {m : Msg} {f : String} {rest : List String} {t : Int} (hk : m.key = "timer")
    (hd : m.data = f :: rest) (hf : stoll f = .ok t) : Spec.IsTick m t :=
  ⟨hk, f, rest, hd, (stoll_iff f t).1 hf⟩

/-- Orders of clients. -/
def tickOrders : List Msg := [fromC "c" ["eval", "j2", "hwgroup=g", ""], fromC "c" ["eval", "j3", "", ""]]

/-- Ticks until the worker is given up. -/
def tickRest : List Msg := [tick "1001", tick "1001", tick "1001", fromC "c" ["get-runtime-stats"]]

/-- The hypotheses of `C113_merge`: a worker with a job, half of the interval, two orders, and the other
    half with some more.  Later the worker is given up, and the job is reported as failed. -/
example : ∃ h s, Run (Q := Multi) cfg0 env0 h s ∧ h.map (·.msg) = signStart ∧
    s.workers ≠ [] ∧ Spec.Quiet cfg0 s 600 ∧ ¬ Spec.Quiet cfg0 s 1300 ∧
    Spec.IsTick (tick "600") 600 ∧ Spec.IsTick (tick "700") 700 ∧ Spec.IsTick (tick "1300") (600 + 700) ∧
    (∀ m ∈ tickOrders, Spec.OfClient m) ∧
    (Spec.sent (transcript cfg0 env0 s (tickOrders ++ tick "1300" :: tickRest))).length = 4 := by
  obtain ⟨h, s, hr, hd⟩ := exists_run (Q := Multi) (cfg := cfg0) (env := env0) signStart
    (fun h s => decide (h.map (·.msg) = signStart ∧ s.workers ≠ [] ∧
      (∀ w ∈ s.workers, s.timers.getD w 0 + 600 ≤ cfg0.pingInterval) ∧
      ¬ (∀ w ∈ s.workers, s.timers.getD w 0 + 1300 ≤ cfg0.pingInterval) ∧
      (Spec.sent (transcript cfg0 env0 s (tickOrders ++ tick "1300" :: tickRest))).length = 4))
    (by decide +kernel)
  have hd := of_decide_eq_true hd
  exact ⟨h, s, hr, hd.1, hd.2.1, hd.2.2.1, hd.2.2.2.1, isTick_of rfl rfl (by decide),
    isTick_of rfl rfl (by decide), isTick_of rfl rfl (by decide), by decide, hd.2.2.2.2⟩

/-- The hypotheses of `C113_sum`: three ticks within the interval and an order, with the single-queue
    manager. -/
example : ∃ h s, Run (Q := Single) cfg0 env0 h s ∧ h.map (·.msg) = signStart ∧ s.workers ≠ [] ∧
    Spec.Elapsed (tick "300" :: tickOrders ++ [tick "200", tick "400"]) 900 ∧
    (∀ l' T, l' <+: tick "300" :: tickOrders ++ [tick "200", tick "400"] → Spec.Elapsed l' T →
      Spec.Quiet cfg0 s T) ∧ Spec.IsTick (tick "101") 101 ∧ Spec.IsTick (tick "1001") (900 + 101) ∧
    Spec.sent (transcript cfg0 env0 s (tick "300" :: tickOrders ++ [tick "200", tick "400"])) ≠ [] := by
  obtain ⟨h, s, hr, hd⟩ := exists_run (Q := Single) (cfg := cfg0) (env := env0) signStart
    (fun h s => decide (h.map (·.msg) = signStart ∧ s.workers ≠ [] ∧
      (∀ w ∈ s.workers, s.timers.getD w 0 + 900 ≤ cfg0.pingInterval) ∧
      Spec.sent (transcript cfg0 env0 s (tick "300" :: tickOrders ++ [tick "200", tick "400"])) ≠ []))
    (by decide +kernel)
  have hd := of_decide_eq_true hd
  have t1 : Spec.IsTick (tick "300") 300 := isTick_of rfl rfl (by decide)
  have t2 : Spec.IsTick (tick "200") 200 := isTick_of rfl rfl (by decide)
  have t3 : Spec.IsTick (tick "400") 400 := isTick_of rfl rfl (by decide)
  refine ⟨h, s, hr, hd.1, hd.2.1, ?_, ?_, isTick_of rfl rfl (by decide), isTick_of rfl rfl (by decide),
    hd.2.2.2⟩
  · exact .inr ⟨300, 600, t1, .inl ⟨by decide, .inl ⟨by decide, .inr ⟨200, 400, t2,
      .inr ⟨400, 0, t3, rfl, by decide⟩, by decide⟩⟩⟩, by decide⟩
  · intro l' T hp hT w hw
    have hT : T ≤ 900 := by
      have hu : ∀ {m : Msg} {f : String} {fs : List String} {t t' : Int}, m.data = f :: fs →
          stoll f = .ok t' → Spec.IsTick m t → t = t' := by
        rintro m f fs t t' hd hf ⟨-, g, gs, hd', hg⟩
        have hg := (stoll_iff g t).2 hg
        rw [hd] at hd'
        cases hd'
        rw [hf] at hg
        cases hg
        rfl
      have hmem := (List.mem_inits _ _).2 hp
      simp only [tickOrders, List.cons_append, List.nil_append, List.inits_cons, List.inits,
        List.map_cons, List.map_nil, List.mem_cons, List.not_mem_nil, or_false] at hmem
      have n1 : (fromC "c" ["eval", "j2", "hwgroup=g", ""]).key ≠ "timer" := by decide
      have k1 : (tick "300").key = "timer" := rfl
      have k2 : (tick "200").key = "timer" := rfl
      have k3 : (tick "400").key = "timer" := rfl
      have c1 : ∀ {t}, Spec.IsTick (tick "300") t → t = 300 := fun h => hu rfl (by decide) h
      have c2 : ∀ {t}, Spec.IsTick (tick "200") t → t = 200 := fun h => hu rfl (by decide) h
      have c3 : ∀ {t}, Spec.IsTick (tick "400") t → t = 400 := fun h => hu rfl (by decide) h
      have c4 : ∀ {i d t}, ¬ Spec.IsTick (fromC i d) t := fun h => absurd h.1 (by show keyClients ≠ _; decide)
      rcases hmem with rfl | rfl | rfl | rfl | rfl | rfl <;>
        simp only [Spec.Elapsed, k1, k2, k3, ne_eq, not_true_eq_false, false_and, false_or, c4,
          exists_false, or_false] at hT
      · omega
      · obtain ⟨t, T', h1, h2, h3⟩ := hT
        have := c1 h1; omega
      · obtain ⟨t, T', h1, ⟨-, h2⟩, h3⟩ := hT
        have := c1 h1; omega
      · obtain ⟨t, T', h1, ⟨-, -, h2⟩, h3⟩ := hT
        have := c1 h1; omega
      · obtain ⟨t, T', h1, ⟨-, -, t', T'', h4, h5, h6⟩, h3⟩ := hT
        have := c1 h1; have := c2 h4; omega
      · obtain ⟨t, T', h1, ⟨-, -, t', T'', h4, ⟨u, U, h7, h8, h9⟩, h6⟩, h3⟩ := hT
        have := c1 h1; have := c2 h4; have := c3 h7; omega
    have := hd.2.2.1 w hw
    omega

/-- A tick that takes a worker beyond the interval cannot be added to the next one: two times the
    interval is not two intervals, and the worker lives longer. -/
theorem C113_quiet_needed : ¬ ∀ (s : HState Multi) (h : List (Tr Multi)), Run cfg0 env0 h s →
    ∀ (p q r : Msg) (a b : Int), Spec.IsTick p a → Spec.IsTick q b → Spec.IsTick r (a + b) → ∀ ms,
      transcript cfg0 env0 s (p :: q :: ms) = ([], none) :: transcript cfg0 env0 s (r :: ms) := by
  intro hall
  obtain ⟨h, s, hr, hd⟩ := exists_run (Q := Multi) (cfg := cfg0) (env := env0) signStart
    (fun _ s => decide (transcript cfg0 env0 s [tick "1001", tick "1001", tick "1001", tick "1001"] ≠
      ([], none) :: transcript cfg0 env0 s [tick "2002", tick "1001", tick "1001"])) (by decide +kernel)
  exact of_decide_eq_true hd (hall s h hr (tick "1001") (tick "1001") (tick "2002") 1001 1001
    (isTick_of rfl rfl (by decide)) (isTick_of rfl rfl (by decide)) (isTick_of rfl rfl (by decide))
    [tick "1001", tick "1001"])

/-- A message of the worker cannot be passed: the time before it is forgiven. -/
theorem C113_worker_needed : ¬ ∀ (s : HState Multi) (h : List (Tr Multi)), Run cfg0 env0 h s →
    ∀ (p q r : Msg) (a b : Int), Spec.IsTick p a → Spec.IsTick q b → Spec.IsTick r (a + b) →
    Spec.Quiet cfg0 s a → ∀ (m : Msg), m.key = "workers" → ∀ ms,
      transcript cfg0 env0 s (p :: m :: q :: ms) = ([], none) :: transcript cfg0 env0 s (m :: r :: ms) := by
  intro hall
  obtain ⟨h, s, hr, hd⟩ := exists_run (Q := Multi) (cfg := cfg0) (env := env0) signStart
    (fun _ s => decide ((∀ w ∈ s.workers, s.timers.getD w 0 + 900 ≤ cfg0.pingInterval) ∧
      transcript cfg0 env0 s [tick "900", fromW "a" ["ping"], tick "900", tick "1001", tick "1001",
          tick "1001"] ≠
        ([], none) :: transcript cfg0 env0 s [fromW "a" ["ping"], tick "1800", tick "1001", tick "1001",
          tick "1001"])) (by decide +kernel)
  have hd := of_decide_eq_true hd
  exact hd.2 (hall s h hr (tick "900") (tick "900") (tick "1800") 900 900
    (isTick_of rfl rfl (by decide)) (isTick_of rfl rfl (by decide)) (isTick_of rfl rfl (by decide))
    hd.1 (fromW "a" ["ping"]) rfl [tick "1001", tick "1001", tick "1001"])

/-- The query for statistics tells the ticks apart: the numbers are those of the last tick. -/
theorem C113_query_needed : ¬ ∀ (s : HState Multi) (h : List (Tr Multi)), Run cfg0 env0 h s →
    ∀ (p q r : Msg) (a b : Int), Spec.IsTick p a → Spec.IsTick q b → Spec.IsTick r (a + b) →
    Spec.Quiet cfg0 s a → ∀ (m : Msg), m.key = "clients" → ∀ ms,
      transcript cfg0 env0 s (p :: m :: q :: ms) = ([], none) :: transcript cfg0 env0 s (m :: r :: ms) := by
  intro hall
  obtain ⟨h, s, hr, hd⟩ := exists_run (Q := Multi) (cfg := cfg0) (env := env0) signStart
    (fun _ s => decide ((∀ w ∈ s.workers, s.timers.getD w 0 + 1 ≤ cfg0.pingInterval) ∧
      transcript cfg0 env0 s [tick "1", fromC "c" ["get-runtime-stats"], tick "1"] ≠
        ([], none) :: transcript cfg0 env0 s [fromC "c" ["get-runtime-stats"], tick "2"]))
    (by decide +kernel)
  have hd := of_decide_eq_true hd
  exact hd.2 (hall s h hr (tick "1") (tick "1") (tick "2") 1 1
    (isTick_of rfl rfl (by decide)) (isTick_of rfl rfl (by decide)) (isTick_of rfl rfl (by decide))
    hd.1 (fromC "c" ["get-runtime-stats"]) rfl [])

end Broker
