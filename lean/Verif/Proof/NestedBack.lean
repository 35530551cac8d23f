import Verif.Proof.Nested

/-!
# Executions of the process model are executions of the reactor with the broker's handlers
-/

namespace Broker.Reactor

variable {Q : Type} [QueueManager Q] {cfg : HConfig} {env : Env} {e : SysEnv}
  {impl : (Nat → Bool) → Msg → HState Q → Prog (HState Q)}

/-- The main thread is in its loop, or about to pass on a message. -/
inductive Norm (g : BSt e impl) (s : Sys Q) : Prop
  | idle (h1 : g.stack = []) (h2 : s.todo = [])
      (h3 : PlaceRel g.place s.pc) (h4 : g.asked = s.routed)
      (h5 : g.place ≠ .halt → hOf g = s.h ∧ g.calls.map (·.2) = s.calls)
  | body {v : HState Q} {m' : Msg} {k : HState Q → Prog (HState Q)} {m : Msg} {fin : Bool × HState Q}
      (h1 : g.stack = [.body .broker (.respond v m' k), .loop m []])
      (h2 : (Prog.respond v m' k).run = (s.todo, fin))
      (h3 : Fin g s fin) (h4 : g.asked = s.routed)

/-- The reactor can get there from here. -/
def Gets (evs : List (Ev HandlerRef)) (s : Sys Q) (e : SysEnv)
    (impl : (Nat → Bool) → Msg → HState Q → Prog (HState Q)) : Prop :=
  ∃ evs2, ∃ g' : BSt e impl, Exec (brokerSetup e impl) (evs ++ evs2) g' ∧ Side (evs ++ evs2) g' s ∧
    Norm g' s

theorem Gets.of {evs : List (Ev HandlerRef)} {s : Sys Q} {ev : Ev HandlerRef}
    (h : Gets (evs ++ [ev]) s e impl) : Gets evs s e impl := by
  obtain ⟨evs2, g', h1, h2, h3⟩ := h
  exact ⟨ev :: evs2, g', by simpa using h1, by simpa using h2, h3⟩

theorem Gets.now {evs : List (Ev HandlerRef)} {s : Sys Q} {g : BSt e impl}
    (hx : Exec (brokerSetup e impl) evs g) (hs : Side evs g s) (hn : Norm g s) : Gets evs s e impl :=
  ⟨[], g, by simpa using hx, by simpa using hs, hn⟩

/-- Closes the goals of `Side.congr`. -/
local macro "side " h:term : tactic => `(tactic| (apply Side.congr $h <;>
  first | rfl | (exact fun k => Side.inbox $h k) | (exact fun k => Side.sent $h k) | (simp [nOf]; done)))

/-- The event of the main thread. -/
abbrev mainEv : Ev HandlerRef := .main (fun _ => false) none

theorem settle_loop {evs : List (Ev HandlerRef)} {g : BSt e impl} {s : Sys Q} {m : Msg}
    (hx : Exec (brokerSetup e impl) evs g) (hs : Side evs g s) (h1 : g.stack = [.loop m []])
    (h2 : s.todo = []) (h3 : PlaceRel g.place s.pc) (h4 : g.asked = s.routed)
    (h5 : g.place ≠ .halt → hOf g = s.h ∧ g.calls.map (·.2) = s.calls) : Gets evs s e impl := by
  have hx' := hx.snoc (ev := mainEv) (s' := { g with stack := [] })
    (by simp only [St.next, h1, St.inCall])
  refine (Gets.now hx' ?_ ?_).of
  · side hs
  · exact .idle rfl h2 h3 h4 h5

theorem settle_body {evs : List (Ev HandlerRef)} {g : BSt e impl} {s : Sys Q} {m : Msg}
    {p : Prog (HState Q)} {fin : Bool × HState Q}
    (hx : Exec (brokerSetup e impl) evs g) (hs : Side evs g s)
    (h1 : g.stack = [.body .broker p, .loop m []]) (h2 : p.run = (s.todo, fin)) (h3 : Fin g s fin)
    (h4 : g.asked = s.routed) : Gets evs s e impl := by
  cases p with
  | respond v m' k => exact Gets.now hx hs (.body h1 h2 h3 h4)
  | done v =>
    simp only [Prog.run, Prod.mk.injEq] at h2
    obtain ⟨e1, rfl⟩ := h2
    have hx' := hx.snoc (ev := mainEv)
      (s' := { g with obj := Function.update g.obj .broker v, stack := [.loop m []] })
      (by simp only [St.next, h1, St.inCall])
    refine (settle_loop hx' ?_ rfl e1.symm ?_ h4 ?_).of
    · side hs
    · cases h3 with | ok q1 => exact q1
    · cases h3 with
      | ok q1 q2 q3 =>
        exact fun _ => ⟨Function.update_self HandlerRef.broker _ g.obj, q3⟩
  | throw v =>
    simp only [Prog.run, Prod.mk.injEq] at h2
    obtain ⟨e1, rfl⟩ := h2
    have hx' := hx.snoc (ev := mainEv)
      (s' := { g with obj := Function.update g.obj .broker v, stack := [], place := .halt })
      (by simp only [St.next, h1, St.inCall])
    refine (Gets.now hx' ?_ (.idle rfl e1.symm ?_ h4 fun h => absurd rfl h)).of
    · side hs
    · cases h3 with | fail q1 => rw [q1]; exact .halt

theorem settle_wait {evs : List (Ev HandlerRef)} {g : BSt e impl} {s : Sys Q} {m : Msg}
    {k : HState Q → Prog (HState Q)} {fin : Bool × HState Q}
    (hx : Exec (brokerSetup e impl) evs g) (hs : Side evs g s)
    (h1 : g.stack = [.wait .broker k, .loop m []]) (h2 : (k (hOf g)).run = (s.todo, fin))
    (h3 : Fin g s fin) (h4 : g.asked = s.routed) : Gets evs s e impl := by
  have hx' := hx.snoc (ev := mainEv)
    (s' := { g with stack := [.body .broker (k (hOf g)), .loop m []] })
    (by simp only [St.next, h1, St.inCall]; rfl)
  refine (settle_body hx' ?_ rfl h2 (h3.congr rfl rfl rfl rfl rfl) h4).of
  side hs

theorem settle {evs : List (Ev HandlerRef)} {g : BSt e impl} {s : Sys Q} (hf : Faithful cfg env impl)
    (hx : Exec (brokerSetup e impl) evs g) (hs : Side evs g s) (hp : Phase cfg env g s)
    (hq : g.asked = s.routed) : Gets evs s e impl := by
  cases hp with
  | idle h1 h2 h3 h4 h5 =>
    rcases h1 with h1 | ⟨⟨m, h1⟩, _⟩
    · exact .now hx hs (.idle h1 h2 h3 h4 h5)
    · exact settle_loop hx hs h1 h2 h3 h4 h5
  | @ok m h' h1 h2 h3 h4 h5 h6 h7 h8 =>
    have hx' := hx.snoc (ev := mainEv)
      (s' := { g with
        stack := [.body .broker (impl (fun _ => false) m (hOf g)), .loop m []]
        calls := g.calls ++ [(.broker, m)]
        reentered := g.reentered || decide (HandlerRef.broker ∈ ([] : List HandlerRef)) })
      (by simp only [St.next, h1, St.inCall]; rfl)
    have hrun := hf (fun _ => false) m (hOf g)
    rw [h2] at hrun
    refine (settle_body hx' ?_ rfl (fin := (true, s.h)) ?_ (.ok h5 h6 ?_) h8).of
    · side hs
    · rw [h4, h3]; exact hrun
    · simpa using h7
  | @fail m err h' h1 h2 h3 h4 h5 =>
    have hx' := hx.snoc (ev := mainEv)
      (s' := { g with
        stack := [.body .broker (impl (fun _ => false) m (hOf g)), .loop m []]
        calls := g.calls ++ [(.broker, m)]
        reentered := g.reentered || decide (HandlerRef.broker ∈ ([] : List HandlerRef)) })
      (by simp only [St.next, h1, St.inCall]; rfl)
    have hrun := hf (fun _ => false) m (hOf g)
    rw [h2] at hrun
    refine (settle_body hx' ?_ rfl (fin := (false, h')) ?_ (.fail h4) h5).of
    · side hs
    · rw [h3]; exact hrun
  | body h1 h2 h3 h4 => exact settle_body hx hs h1 h2 h3 h4
  | wait h1 h2 h3 h4 => exact settle_wait hx hs h1 h2 h3 h4
  | sending h1 hk h2 h0 h3 h4 =>
    rw [h4] at hq
    exact absurd (congrArg List.length hq) (by simp)
  | @sent k m m' fin h1 h2 h3 h4 =>
    have hx' := hx.snoc (ev := mainEv) (s' := { g with stack := [.wait .broker k, .loop m []] })
      (by simp only [St.next, h1, St.inCall])
    refine (settle_wait hx' ?_ rfl h2 (h3.congr rfl rfl rfl rfl rfl) h4).of
    side hs

theorem PlaceRel.of_poll {pl : Place} (h : PlaceRel pl .poll) : pl = .poll := by cases h; rfl

theorem PlaceRel.of_serve {pl : Place} {ks : List String} {el : Int} (h : PlaceRel pl (.serve ks el)) :
    pl = .serve (ks.map some) el := by cases h; rfl

theorem Norm.congr {g g' : BSt e impl} {s s' : Sys Q} (h : Norm g s)
    (e0 : g'.stack = g.stack) (e1 : g'.place = g.place) (e2 : g'.calls = g.calls)
    (e3 : g'.asked = g.asked) (e4 : hOf g' = hOf g) (f1 : s'.todo = s.todo) (f2 : s'.pc = s.pc)
    (f3 : s'.h = s.h) (f4 : s'.calls = s.calls) (f5 : s'.routed = s.routed) : Norm g' s' := by
  cases h with
  | idle h1 h2 h3 h4 h5 =>
    exact .idle (by rw [e0]; exact h1) (by rw [f1]; exact h2) (by rw [e1, f2]; exact h3)
      (by rw [e3, f5]; exact h4) (by rw [e1, e2, e4, f3, f4]; exact h5)
  | body h1 h2 h3 h4 =>
    exact .body (e0.trans h1) (by rw [f1]; exact h2) (h3.congr e1 e2 f2 f4 f3) (by rw [e3, f5]; exact h4)

/-- A message from the loop is handled. -/
theorem back_process (hf : Faithful cfg env impl) {evs : List (Ev HandlerRef)} {g g0 : BSt e impl}
    {s0 : Sys Q} {m : Msg} (hx : Exec (brokerSetup e impl) evs g)
    (hn : g.next mainEv = some (St.process m g0)) (hs : Side (evs ++ [mainEv]) g0 s0)
    (h1 : g0.stack = []) (h2 : s0.todo = []) (h3 : PlaceRel g0.place s0.pc)
    (h4 : g0.place ≠ .halt) (h5 : hOf g0 = s0.h) (h6 : g0.calls.map (·.2) = s0.calls)
    (h7 : g0.asked = s0.routed)
    (hk : m.key = "clients" ∨ m.key = "workers" ∨ m.key = "monitor" ∨ m.key = "timer") :
    Gets evs (Sys.process cfg env e m s0) e impl := by
  obtain ⟨q1, q2⟩ := process_phase (cfg := cfg) (env := env) hs h1 h2 h3 h4 h5 h6 h7 hk
  refine (settle hf (hx.snoc hn) q1 q2 ?_).of
  refine h7.trans ?_
  unfold Sys.process
  by_cases hm : m.key = "monitor"
  · rw [process_monitor hm]; rfl
  · have hk' : m.key = "clients" ∨ m.key = "workers" ∨ m.key = "timer" := by
      rcases hk with h | h | h | h
      · exact .inl h
      · exact .inr (.inl h)
      · exact absurd h hm
      · exact .inr (.inr h)
    rw [process_broker hk']
    simp only [List.foldl_cons, List.foldl_nil, Sys.deliver, Sys.call, Bool.false_eq_true, if_false]
    split <;> rfl

theorem back_step (hf : Faithful cfg env impl) {evs : List (Ev HandlerRef)} {g : BSt e impl}
    {s s' : Sys Q} {ev : SysEv} (hi : SInv s) (hx : Exec (brokerSetup e impl) evs g)
    (hs : Side evs g s) (hn : Norm g s) (h : s.next cfg env e ev = some s') :
    Gets evs s' e impl := by
  cases ev with
  | arrive k i d =>
    cases next_cases hi h with
    | arrive hk hd =>
      have hx' := hx.snoc (ev := .arrive k i d) (s' := _) (if_pos ⟨hk, hd⟩)
      refine (Gets.now hx' ?_ ?_).of
      rotate_left
      · exact hn.congr rfl rfl rfl rfl rfl rfl rfl rfl rfl rfl
      refine ⟨fun k' => ?_, hs.inproc, hs.idle, hs.pipe, hs.status, hs.cur, hs.dealer, hs.posted, hs.lost,
        hs.taken, hs.sent, fun k' => ?_⟩
      · by_cases hk' : k' = k
        · subst hk'; simp [hs.inbox]
        · simp [hk', hs.inbox]
      · have := hs.arrived k'
        unfold arrivals at this ⊢
        rw [List.filterMap_append, this]
        by_cases hk' : k = k' <;> simp [hk']
  | poll b a =>
    cases next_cases hi h with
    | poll ht hpc =>
      cases hn with
      | body g1 g2 => rw [ht] at g2; simp [Prog.run] at g2
      | idle g1 g2 g3 g4 g5 =>
        rw [hpc] at g3
        have hpl := g3.of_poll
        have hready : (brokerSetup e impl).wiring.order.filter (fun k => !(g.inbox k).isEmpty)
            = brokerWiring.order.filter (fun k => !(s.inbox k).isEmpty) := by
          have : g.inbox = s.inbox := funext hs.inbox
          rw [this]; rfl
        have hx' := hx.snoc (ev := .poll b a) (s' := { g with
            place := .serve ((brokerWiring.order.filter (fun k => !(s.inbox k).isEmpty)).map some)
              (elapsedMs b a) })
          (by simp only [St.next, St.pollReturns, g1, hpl, not_readable hs, hready]
              simp)
        refine (Gets.now hx' ?_ ?_).of
        · side hs
        · exact .idle g1 g2 .serve g4 fun _ => g5 (by rw [hpl]; simp)
  | main =>
    cases hn with
    | idle g1 g2 g3 g4 g5 =>
      simp only [Sys.next, Sys.main, g2] at h
      cases hpc : s.pc with
      | poll => simp [hpc] at h
      | halt err => simp [hpc] at h
      | serve ks el =>
        rw [hpc] at g3
        have hpl := g3.of_serve
        have g5 := g5 (by rw [hpl]; simp)
        cases ks with
        | nil =>
          simp only [hpc, Option.some.injEq] at h
          subst h
          refine back_process hf (g0 := { g with place := .poll }) hx ?_ ?_ g1 rfl .poll (by simp)
            g5.1 g5.2 g4 (.inr (.inr (.inr rfl)))
          · simp only [St.next, g1, St.inLoop, hpl, List.map_nil]
          · side hs
        | cons k ks =>
          cases hin : s.inbox k with
          | nil => simp [hpc, hin] at h
          | cons p rest =>
            obtain ⟨i, d⟩ := p
            simp only [hpc, hin, receiveMessage_all, Option.map_some, Option.some.injEq] at h
            subst h
            have hord := ((hi.ready _ _ hpc).1.subset) (List.mem_cons_self)
            refine back_process hf (g0 := { g with
              place := .serve (ks.map some) el, inbox := Function.update g.inbox k rest }) hx ?_ ?_ g1 rfl
              .serve (by simp) g5.1 g5.2 g4 ?_
            · have hin' : g.inbox k = (i, d) :: rest := (hs.inbox k).trans hin
              simp only [St.next, g1, St.inLoop, hpl, List.map_cons, hin']
            · apply Side.congr hs <;> first | rfl | exact hs.sent | (simp; done) | skip
              intro k'
              by_cases hk' : k' = k
              · subst hk'; simp
              · simp [hk', hs.inbox]
            · rcases order_cases hord with h | h | h <;> simp [h]
    | @body v m k m0 fin g1 g2 g3 g4 =>
      simp only [Prog.run, Prod.mk.injEq] at g2
      obtain ⟨e1, e2⟩ := g2
      have htodo : s.todo = m :: (k v).run.1 := e1.symm
      have hnx : g.next mainEv = some (St.send m { g with
          obj := Function.update g.obj .broker v, stack := [.wait .broker k, .loop m0 []] }) := by
        simp only [St.next, g1, St.inCall]
      have hx' := hx.snoc hnx
      cases next_cases hi h with
      | @sock m' t ht hk =>
        rw [htodo] at ht; cases ht
        have hsock : (brokerSetup e impl).wiring.sockets.any (fun e => e.1 == m.key) = true :=
          (isSocket_iff (S := brokerSetup e impl)).2 hk
        have heq : St.send m { g with obj := Function.update g.obj .broker v, stack := [.wait .broker k, .loop m0 []] }
            = { g with obj := Function.update g.obj .broker v, stack := [.wait .broker k, .loop m0 []]
                       asked := g.asked ++ [m], sent := g.sent ++ [m] } := by
          unfold St.send; rw [if_pos hsock]
        rw [heq] at hx'
        refine (settle_wait (fin := fin) hx' ?_ rfl ?_ ?_ ?_).of
        · apply Side.congr hs <;> first | rfl | exact hs.inbox | (simp; done) | skip
          intro k'
          simp only [List.filter_append]
          by_cases hk' : m.key = k'
          · subst hk'; simp [hs.sent]
          · simp [hk', Ne.symm hk', hs.sent]
        · simp only [hOf, ← e2]; rfl
        · exact g3.congr rfl rfl rfl rfl rfl
        · show g.asked ++ [m] = s.routed ++ [m]; rw [g4]
      | @post m' t ht hk =>
        rw [htodo] at ht; cases ht
        have hsock : ¬ (brokerSetup e impl).wiring.sockets.any (fun e => e.1 == m.key) = true := by
          intro h
          have := (isSocket_iff (S := brokerSetup e impl)).1 h
          rw [hk] at this
          exact absurd this (by show ¬ keyNotifier ∈ brokerWiring.order; decide)
        have hrange : mmRange m.key brokerWiring.handlers = [.notifier] := by rw [hk]; decide
        have heq : St.send m { g with obj := Function.update g.obj .broker v, stack := [.wait .broker k, .loop m0 []] }
            = { g with obj := Function.update g.obj .broker v
                       stack := [.loop m [.notifier], .wait .broker k, .loop m0 []]
                       asked := g.asked ++ [m], processed := g.processed ++ [m] } := by
          unfold St.send; rw [if_neg hsock]
          unfold St.process
          simp only [St.mk.injEq, true_and, and_true, List.cons.injEq, Frame.loop.injEq]
          exact hrange
        rw [heq] at hx'
        have hx'' := hx'.snoc (ev := mainEv) (s' := _) (by simp only [St.next, St.inCall]; rfl)
        have hs0 : Side (evs ++ [mainEv] ++ [mainEv]) { g with
            obj := Function.update g.obj .broker v
            stack := [.loop m [], .wait .broker k, .loop m0 []]
            asked := g.asked ++ [m], processed := g.processed ++ [m] }
            { s with todo := (k v).run.1, routed := s.routed ++ [m] } :=
          Side.snoc (by side hs) (by simp)
        have hq : (Sys.post e m { s with todo := (k v).run.1, routed := s.routed ++ [m] }).todo = (k v).run.1 ∧
            (Sys.post e m { s with todo := (k v).run.1, routed := s.routed ++ [m] }).pc = s.pc ∧
            (Sys.post e m { s with todo := (k v).run.1, routed := s.routed ++ [m] }).h = s.h ∧
            (Sys.post e m { s with todo := (k v).run.1, routed := s.routed ++ [m] }).calls = s.calls ∧
            (Sys.post e m { s with todo := (k v).run.1, routed := s.routed ++ [m] }).routed
              = s.routed ++ [m] := by
          unfold Sys.post; simp only []; split <;> exact ⟨rfl, rfl, rfl, rfl, rfl⟩
        obtain ⟨q1, q2, q3, q4, q5⟩ := hq
        refine Gets.of (ev := mainEv) (Gets.of (ev := mainEv) ?_)
        refine settle hf hx'' (post_side hs0 hi.closed (notifies hi htodo hk)) (.sent rfl (fin := fin) ?_
          (g3.congr rfl rfl q2 q4 q3) ?_) ?_
        · rw [q1]
          simp only [hOf, St.post, ← e2]; rfl
        · rw [q5]; show g.asked ++ [m] = s.routed ++ [m]; rw [g4]
        · rw [q5]; show g.asked ++ [m] = s.routed ++ [m]; rw [g4]
      | idle ht => rw [htodo] at ht; cases ht
      | handle ht => rw [htodo] at ht; cases ht
      | fail ht => rw [htodo] at ht; cases ht
  | connect =>
    cases next_cases hi h with
    | connect ht =>
      have h2 : (g.thr .notifier).status = .starting := by
        rcases hs.status with h | h
        · exact h.1
        · rw [h.2] at ht; cases ht
      have hx' := hx.snoc (ev := .connect .notifier) (s' := _) (if_pos ⟨rfl, h2⟩)
      refine (Gets.now hx' ?_ ?_).of
      rotate_left
      · exact hn.congr rfl rfl rfl rfl rfl rfl rfl rfl rfl rfl
      exact ⟨hs.inbox, hs.inproc, by simpa using hs.idle, by simpa using hs.pipe, by simp,
          by simpa [nOf] using hs.cur, by simpa using hs.dealer, hs.posted, hs.lost, hs.taken, hs.sent,
          fun k => by rw [arrivals_snoc (by simp)]; exact hs.arrived k⟩
  | take x =>
    cases next_cases hi h with
    | @take _ m rest acts ht hp hnot =>
      have h2 : (g.thr .notifier).status = .running := by
        rcases hs.status with h | h
        · rw [h.2] at ht; cases ht
        · exact h.1
      obtain ⟨ms, hms, hmk⟩ := hi.pipe
      have hterm : m.key ≠ "TERMINATE" := by
        cases ms with
        | nil => rw [hp] at hms; cases hms
        | cons m1 ms' =>
          rw [hp] at hms
          have := (List.cons.inj hms).1
          simp only [List.cons.injEq] at this
          rw [this.1, (hmk m1 (by simp)).1]; decide
      have htt := threadTurn_frames (m := m) hterm []
      rw [List.append_nil] at htt
      -- the previous call ends first
      have key : ∀ {evs : List (Ev HandlerRef)} {g : BSt e impl}, Exec (brokerSetup e impl) evs g →
          Side evs g s → Norm g s → (g.thr .notifier).status = .running →
          (g.thr .notifier).cur = none → nOf g = s.notified →
          Gets evs { s with pipe := rest, notified := s.notified ++ [(m, acts)] } e impl := by
        intro evs g hx hs hn h2 hcur hno
        have hpipe : (g.thr .notifier).pipe = (m.key :: m.identity :: m.data) :: rest := hs.pipe.trans hp
        have hprog : ((brokerSetup e impl).obj .notifier).onRequest x m (g.obj .notifier)
            = .done (s.notified ++ [(m, acts)]) := by
          show (notifierObj e.ncfg).onRequest x m (nOf g) = _
          simp only [notifierObj, hnot, hno]
          rfl
        have hx' := hx.snoc (ev := .take .notifier x) (s' := _)
          (by simp only [St.next, St.take, h2, hcur, hpipe, htt]; rfl)
        refine (Gets.now hx' ?_ ?_).of
        · refine ⟨hs.inbox, hs.inproc, by simpa using hs.idle, by simp, ?_, ?_,
            by simpa using hs.dealer, hs.posted, hs.lost, by simp [hs.taken], hs.sent,
            fun k => by rw [arrivals_snoc (by simp)]; exact hs.arrived k⟩
          · right; exact ⟨by simp, ht⟩
          · right; simp [hprog]
        · exact hn.congr rfl rfl rfl rfl rfl rfl rfl rfl rfl rfl
      rcases hs.cur with ⟨hcur, hno⟩ | hcur
      · exact key hx hs hn h2 hcur hno
      · have hx' := hx.snoc (ev := .thread .notifier) (s' := _)
          (by simp only [St.next, St.thread, hcur]; rfl)
        refine Gets.of (key hx' ?_ ?_ ?_ ?_ ?_)
        · have hv' : nOf { g with obj := Function.update g.obj .notifier s.notified } = s.notified :=
            Function.update_self HandlerRef.notifier _ g.obj
          exact ⟨hs.inbox, hs.inproc, by simpa using hs.idle, by simpa using hs.pipe,
            by simpa using hs.status, .inl ⟨by simp, hv'⟩, by simpa using hs.dealer, hs.posted, hs.lost,
            hs.taken, hs.sent, fun k => by rw [arrivals_snoc (by simp)]; exact hs.arrived k⟩
        · exact hn.congr rfl rfl rfl rfl
            (Function.update_of_ne (a := HandlerRef.broker) (a' := .notifier) (by decide) s.notified g.obj)
            rfl rfl rfl rfl rfl
        · simpa using h2
        · simp
        · exact Function.update_self HandlerRef.notifier _ g.obj

theorem nested_back (hf : Faithful cfg env impl) {evs' : List SysEv} {s : Sys Q}
    (hr : SRun cfg env e evs' s) : ∃ evs, ∃ g : BSt e impl, Exec (brokerSetup e impl) evs g ∧
      Side evs g s ∧ Norm g s := by
  induction hr with
  | nil =>
    refine ⟨[], St.init _, .nil, ?_, ?_⟩
    · exact ⟨fun _ => rfl, rfl, rfl, rfl, .inl ⟨rfl, rfl⟩, .inl ⟨rfl, rfl⟩, rfl, rfl, rfl, rfl,
        fun _ => rfl, fun _ => rfl⟩
    · exact .idle rfl rfl .poll rfl fun _ => ⟨rfl, rfl⟩
  | snoc hr h ih =>
    obtain ⟨evs, g, h1, h2, h3⟩ := ih
    obtain ⟨evs2, g', h4, h5, h6⟩ := back_step hf hr.inv h1 h2 h3 h
    exact ⟨_, g', h4, h5, h6⟩

end Broker.Reactor
