import Verif.Proof.Framing
import Verif.Proof.Outputs

/-!
# Invariants of the process
-/

set_option linter.unusedSectionVars false

namespace Broker

variable {Q : Type} [QueueManager Q]

/-! ## Transitions by cases -/

/-- The main thread takes the next message for the handlers. -/
inductive Source (s : Sys Q) : Msg → Sys Q → Prop
  | recv {k i : String} {d : List String} {rest : List (String × List String)} {ks : List String}
      {el : Int} (hpc : s.pc = .serve (k :: ks) el) (hin : s.inbox k = (i, d) :: rest) :
    Source s ⟨k, i, d⟩
      { s with pc := .serve ks el, inbox := fun x => if x = k then rest else s.inbox x }
  | timer {el : Int} (hpc : s.pc = .serve [] el) : Source s (timerMsg el) { s with pc := .poll }

/-- Transitions, in the situations that can occur. -/
inductive SStep (cfg : HConfig) (env : Env) (e : SysEnv) (s : Sys Q) : SysEv → Sys Q → Prop
  | arrive {k i : String} {d : List String} (hk : k ∈ brokerWiring.order) (hd : d ≠ []) :
    SStep cfg env e s (.arrive k i d)
      { s with inbox := fun x => if x = k then s.inbox k ++ [(i, d)] else s.inbox x
               arrived := s.arrived ++ [(k, i, d)] }
  | poll {b a : Int} (ht : s.todo = []) (hpc : s.pc = .poll) :
    SStep cfg env e s (.poll b a)
      { s with pc := .serve (brokerWiring.order.filter (fun k => !(s.inbox k).isEmpty))
                 (elapsedMs b a)
               polls := s.polls ++ [(b, a)] }
  | sock {m : Msg} {t : List Msg} (ht : s.todo = m :: t) (hk : m.key ∈ brokerWiring.order) :
    SStep cfg env e s .main
      { s with todo := t, routed := s.routed ++ [m]
               socks := fun x => if x = m.key then (s.socks m.key).sendMessage m else s.socks x }
  | post {m : Msg} {t : List Msg} (ht : s.todo = m :: t) (hk : m.key = keyNotifier) :
    SStep cfg env e s .main (Sys.post e m { s with todo := t, routed := s.routed ++ [m] })
  | idle {m : Msg} {s0 : Sys Q} (ht : s.todo = []) (hsrc : Source s m s0) (hk : m.key = keyMonitor) :
    SStep cfg env e s .main { s0 with handled := s.handled ++ [m] }
  | handle {m : Msg} {s0 : Sys Q} {h' : HState Q} (ht : s.todo = []) (hsrc : Source s m s0)
      (hk : m.key ≠ keyMonitor) (hs : step cfg env m s.h = .ok () h') :
    SStep cfg env e s .main
      { s0 with h := h', handled := s.handled ++ [m], calls := s.calls ++ [m], todo := h'.outs
                emitted := s.emitted ++ h'.outs }
  | fail {m : Msg} {s0 : Sys Q} {err : Err} {h' : HState Q} (ht : s.todo = []) (hsrc : Source s m s0)
      (hk : m.key ≠ keyMonitor) (hs : step cfg env m s.h = .error err h') :
    SStep cfg env e s .main
      { s0 with pc := .halt err, handled := s.handled ++ [m], todo := h'.outs
                emitted := s.emitted ++ h'.outs }
  | connect (ht : s.thread = .starting) : SStep cfg env e s .connect { s with thread := .running }
  | take {outcome : Nat → Bool} {m : Msg} {rest : List (List String)} {acts : List NAct}
      (ht : s.thread = .running) (hp : s.pipe = (m.key :: m.identity :: m.data) :: rest)
      (hn : notifierOnRequest e.ncfg outcome m = .ok acts) :
    SStep cfg env e s (.take outcome)
      { s with pipe := rest, notified := s.notified ++ [(m, acts)] }

/-- What keeps the process on the expected paths. -/
structure SInv (s : Sys Q) : Prop where
  shapes : ∀ o ∈ s.emitted, Spec.OutShape True o
  split : s.emitted = s.routed ++ s.todo
  ready : ∀ ks el, s.pc = .serve ks el → ks.Sublist brokerWiring.order ∧ ∀ k ∈ ks, s.inbox k ≠ []
  closed : s.inproc.cur = none
  pipe : ∃ ms : List Msg, s.pipe = ms.map (fun m => m.key :: m.identity :: m.data) ∧
    ∀ m ∈ ms, m.key = keyNotifier ∧ Spec.Notifies m.data
  alive : s.thread = .starting ∨ s.thread = .running
  flat : s.reentered = false

theorem Spec.Notifies.ne_nil {d : List String} (h : Spec.Notifies d) : d ≠ [] := by
  cases h <;> simp

theorem Spec.Notifies.collects {d : List String} (h : Spec.Notifies d) :
    ∃ n, parseNotification d = .ok n := by
  cases h <;> exact ⟨_, rfl⟩

theorem OutShape.mono {b b' : Prop} {o : Msg} (hb : b → b') (h : Spec.OutShape b o) :
    Spec.OutShape b' o := by
  rcases h with h | h | ⟨h1, h2, h3⟩ | h
  · exact .inl h
  · exact .inr (.inl h)
  · exact .inr (.inr (.inl ⟨h1, h2, fun h => hb (h3 h)⟩))
  · exact .inr (.inr (.inr h))

theorem OutShape.key_cases {b : Prop} {o : Msg} (h : Spec.OutShape b o) :
    o.key ∈ brokerWiring.order ∨ (o.key = keyNotifier ∧ Spec.Notifies o.data) := by
  rw [broker_order]
  rcases h with h | h | h | h
  · left; simp [h]
  · left; simp [h.1]
  · left; simp [h.1]
  · right; exact ⟨h.1, h.2.2⟩

theorem order_cases {k : String} (h : k ∈ brokerWiring.order) :
    k = "clients" ∨ k = "workers" ∨ k = "monitor" := by
  rw [broker_order] at h
  simp at h
  tauto

theorem keyTimer_ne_monitor : keyTimer ≠ keyMonitor := by decide

theorem Source.key {s s0 : Sys Q} {m : Msg} (hi : SInv s) (h : Source s m s0) :
    m.key = "clients" ∨ m.key = "workers" ∨ m.key = "monitor" ∨ m.key = "timer" := by
  cases h with
  | @recv k i d rest ks el hpc hin =>
    have := ((hi.ready _ _ hpc).1.subset) (List.mem_cons_self)
    rcases order_cases this with h | h | h <;> simp [h]
  | timer hpc => right; right; right; rfl

theorem Source.h_eq {s s0 : Sys Q} {m : Msg} (h : Source s m s0) :
    s0.h = s.h ∧ s0.todo = s.todo ∧ s0.handled = s.handled ∧ s0.calls = s.calls ∧
      s0.emitted = s.emitted := by
  cases h <;> exact ⟨rfl, rfl, rfl, rfl, rfl⟩

/-- Handling a message from the loop. -/
theorem SStep.of_process {cfg : HConfig} {env : Env} {e : SysEnv} {s s0 : Sys Q} {m : Msg}
    (hi : SInv s) (ht : s.todo = []) (hsrc : Source s m s0) :
    SStep cfg env e s .main (Sys.process cfg env e m s0) := by
  obtain ⟨e1, e2, e3, e4, e5⟩ := hsrc.h_eq
  by_cases hm : m.key = keyMonitor
  · have h1 := SStep.idle (cfg := cfg) (env := env) (e := e) ht hsrc hm
    unfold Sys.process
    rw [process_monitor hm]
    rw [← e3] at h1
    exact h1
  · have hk : m.key = "clients" ∨ m.key = "workers" ∨ m.key = "timer" := by
      rcases hsrc.key hi with h | h | h | h
      · exact .inl h
      · exact .inr (.inl h)
      · exact absurd h hm
      · exact .inr (.inr h)
    unfold Sys.process
    rw [process_broker hk]
    simp only [List.foldl_cons, List.foldl_nil, Sys.deliver, Sys.call, Bool.false_eq_true, if_false]
    cases hs : step cfg env m s0.h with
    | ok u h' =>
      have hs' := hs
      rw [e1] at hs'
      have h1 := SStep.handle (e := e) ht hsrc hm hs'
      simp only [e2, ht, List.nil_append, e3, e4, e5]
      exact h1
    | error err h' =>
      have hs' := hs
      rw [e1] at hs'
      have h1 := SStep.fail (e := e) ht hsrc hm hs'
      simp only [e2, ht, List.nil_append, e3, e5]
      exact h1

theorem next_cases {cfg : HConfig} {env : Env} {e : SysEnv} {s s' : Sys Q} {ev : SysEv}
    (hi : SInv s) (h : s.next cfg env e ev = some s') : SStep cfg env e s ev s' := by
  cases ev with
  | arrive k i d =>
    simp only [Sys.next] at h
    split at h
    · rename_i hc
      cases h
      exact .arrive hc.1 hc.2
    · cases h
  | poll b a =>
    simp only [Sys.next, Sys.pollReturns] at h
    split at h
    · cases h
      exact .poll (by assumption) (by assumption)
    · cases h
  | connect =>
    simp only [Sys.next] at h
    split at h
    · cases h
      exact .connect (by assumption)
    · cases h
  | take outcome =>
    simp only [Sys.next, Sys.take] at h
    split at h
    · rename_i fs rest hth hp
      obtain ⟨ms, hms, hmk⟩ := hi.pipe
      cases ms with
      | nil => rw [hp] at hms; cases hms
      | cons m ms' =>
        rw [hp] at hms
        obtain ⟨rfl, rfl⟩ := List.cons.inj hms
        obtain ⟨hk, hn⟩ := hmk m (by simp)
        have htt := threadTurn_frames (m := m) (by rw [hk]; decide) []
        rw [List.append_nil] at htt
        rw [htt] at h
        obtain ⟨n, hn'⟩ := hn.collects
        have hnot : notifierOnRequest e.ncfg outcome m
            = .ok (retryLoop (httpPost e.ncfg n) outcome 4 1 0) := by
          simp only [notifierOnRequest, hn']
        simp only [hnot] at h
        cases h
        exact .take hth hp hnot
    · cases h
  | main =>
    simp only [Sys.next, Sys.main] at h
    split at h
    · rename_i m t ht
      cases h
      have hsh := hi.shapes m (by rw [hi.split, ht]; simp)
      rcases OutShape.key_cases hsh with hk | ⟨hk, -⟩
      · have h1 := SStep.sock (cfg := cfg) (env := env) (e := e) ht hk
        unfold Sys.send
        have hk' : m.key = "clients" ∨ m.key = "workers" ∨ m.key = "monitor" := order_cases hk
        rw [send_socket hk']
        exact h1
      · have h1 := SStep.post (cfg := cfg) (env := env) (e := e) ht hk
        unfold Sys.send
        rw [send_notifier hk]
        exact h1
    · rename_i ht
      split at h
      · cases h
      · cases h
      · rename_i k ks el hpc
        split at h
        · cases h
        · rename_i i d rest hin
          rw [receiveMessage_all] at h
          cases h
          exact .of_process hi ht (.recv hpc hin)
      · rename_i el hpc
        cases h
        exact .of_process hi ht (.timer hpc)

/-- Posting to the notifier thread. -/
theorem post_eq (e : SysEnv) {m : Msg} {s : Sys Q} (hc : s.inproc.cur = none) (hd : m.data ≠ []) :
    Sys.post e m s = if s.drops e then
      { s with inproc := ⟨none, s.inproc.sent ++ [(e.uid, m.key :: m.identity :: m.data)]⟩
               posted := s.posted ++ [m], lost := s.lost ++ [m] }
    else
      { s with inproc := ⟨none, s.inproc.sent ++ [(e.uid, m.key :: m.identity :: m.data)]⟩
               posted := s.posted ++ [m]
               pipe := s.pipe ++ [m.key :: m.identity :: m.data] } := by
  unfold Sys.post
  simp only [sendAll_async hd hc e.uid]
  split
  · rfl
  · simp

theorem SInv.init : SInv (Sys.init Q) where
  shapes := by simp [Sys.init]
  split := rfl
  ready := by intro ks el h; cases h
  closed := rfl
  pipe := ⟨[], rfl, by simp⟩
  alive := .inl rfl
  flat := rfl

theorem Source.ready {s s0 : Sys Q} {m : Msg} (hi : SInv s) (h : Source s m s0) :
    ∀ ks el, s0.pc = .serve ks el → ks.Sublist brokerWiring.order ∧ ∀ k ∈ ks, s0.inbox k ≠ [] := by
  cases h with
  | @recv k i d rest ks el hpc hin =>
    intro ks' el' hh
    cases hh
    obtain ⟨h1, h2⟩ := hi.ready _ _ hpc
    refine ⟨(List.sublist_cons_self _ _).trans h1, ?_⟩
    intro k' hk'
    have hne : k' ≠ k := by
      have hnd : (k :: ks).Nodup := h1.nodup (by rw [broker_order]; decide)
      rintro rfl
      exact (List.nodup_cons.1 hnd).1 hk'
    simp only [if_neg hne]
    exact h2 k' (by simp [hk'])
  | timer hpc => intro ks el hh; cases hh

theorem SInv.step {cfg : HConfig} {env : Env} {e : SysEnv} {s s' : Sys Q} {ev : SysEv}
    (hi : SInv s) (h : SStep cfg env e s ev s') : SInv s' := by
  cases h with
  | @arrive k i d hk hd =>
    refine ⟨hi.shapes, hi.split, ?_, hi.closed, hi.pipe, hi.alive, hi.flat⟩
    intro ks el hpc
    obtain ⟨h1, h2⟩ := hi.ready _ _ hpc
    refine ⟨h1, fun k' hk' => ?_⟩
    show (if k' = k then _ else _) ≠ _
    split
    · simp
    · exact h2 k' hk'
  | poll ht hpc =>
    refine ⟨hi.shapes, hi.split, ?_, hi.closed, hi.pipe, hi.alive, hi.flat⟩
    intro ks el hpc
    cases hpc
    refine ⟨List.filter_sublist, fun k hk => ?_⟩
    have := (List.mem_filter.1 hk).2
    show s.inbox k ≠ []
    intro h0
    rw [h0] at this
    simp at this
  | sock ht hk =>
    exact ⟨hi.shapes, by rw [hi.split, ht]; simp, hi.ready, hi.closed, hi.pipe, hi.alive, hi.flat⟩
  | @post m t ht hk =>
    have hsh := hi.shapes m (by rw [hi.split, ht]; simp)
    have hn : Spec.Notifies m.data := by
      rcases OutShape.key_cases hsh with h | h
      · rw [hk] at h; exact absurd h (by decide)
      · exact h.2
    rw [post_eq e (by exact hi.closed) hn.ne_nil]
    split
    · exact ⟨hi.shapes, by show s.emitted = _; rw [hi.split, ht]; simp, hi.ready, rfl, hi.pipe,
        hi.alive, hi.flat⟩
    · obtain ⟨ms, h1, h2⟩ := hi.pipe
      refine ⟨hi.shapes, by show s.emitted = _; rw [hi.split, ht]; simp, hi.ready, rfl,
        ⟨ms ++ [m], by show s.pipe ++ _ = _; rw [h1]; simp, ?_⟩, hi.alive, hi.flat⟩
      intro m' hm'
      rcases List.mem_append.1 hm' with h | h
      · exact h2 m' h
      · rw [List.mem_singleton.1 h]; exact ⟨hk, hn⟩
  | idle ht hsrc hk =>
    have hr := hsrc.ready hi
    cases hsrc with
    | recv hpc hin => exact ⟨hi.shapes, hi.split, hr, hi.closed, hi.pipe, hi.alive, hi.flat⟩
    | timer hpc => exact ⟨hi.shapes, hi.split, hr, hi.closed, hi.pipe, hi.alive, hi.flat⟩
  | @handle m s0 h' ht hsrc hk hs =>
    have hr := hsrc.ready hi
    have hsh := step_shapes cfg env m s.h
    rw [hs] at hsh
    have hall : ∀ o ∈ s.emitted ++ h'.outs, Spec.OutShape True o := by
      intro o ho
      rcases List.mem_append.1 ho with h | h
      · exact hi.shapes o h
      · exact OutShape.mono (fun _ => trivial) (hsh o h)
    have hsp : s.emitted ++ h'.outs = s.routed ++ h'.outs := by rw [hi.split, ht]; simp
    cases hsrc with
    | recv hpc hin => exact ⟨hall, hsp, hr, hi.closed, hi.pipe, hi.alive, hi.flat⟩
    | timer hpc => exact ⟨hall, hsp, hr, hi.closed, hi.pipe, hi.alive, hi.flat⟩
  | @fail m s0 err h' ht hsrc hk hs =>
    have hsh := step_shapes cfg env m s.h
    rw [hs] at hsh
    have hall : ∀ o ∈ s.emitted ++ h'.outs, Spec.OutShape True o := by
      intro o ho
      rcases List.mem_append.1 ho with h | h
      · exact hi.shapes o h
      · exact OutShape.mono (fun _ => trivial) (hsh o h)
    have hsp : s.emitted ++ h'.outs = s.routed ++ h'.outs := by rw [hi.split, ht]; simp
    have hr : ∀ (x : Sys Q) ks el, Pc.halt err = .serve ks el →
        ks.Sublist brokerWiring.order ∧ ∀ k ∈ ks, x.inbox k ≠ [] := by
      intro x ks el hh; cases hh
    cases hsrc with
    | recv hpc hin => exact ⟨hall, hsp, hr _, hi.closed, hi.pipe, hi.alive, hi.flat⟩
    | timer hpc => exact ⟨hall, hsp, hr _, hi.closed, hi.pipe, hi.alive, hi.flat⟩
  | connect ht => exact ⟨hi.shapes, hi.split, hi.ready, hi.closed, hi.pipe, .inr rfl, hi.flat⟩
  | @take outcome m rest acts ht hp hn =>
    obtain ⟨ms, h1, h2⟩ := hi.pipe
    refine ⟨hi.shapes, hi.split, hi.ready, hi.closed, ?_, hi.alive, hi.flat⟩
    rw [hp] at h1
    cases ms with
    | nil => cases h1
    | cons m' ms' =>
      exact ⟨ms', (List.cons.inj h1).2, fun x hx => h2 x (by simp [hx])⟩

theorem SRun.inv {cfg : HConfig} {env : Env} {e : SysEnv} {evs : List SysEv} {s : Sys Q}
    (hr : SRun cfg env e evs s) : SInv s := by
  induction hr with
  | nil => exact SInv.init
  | snoc hr hs ih => exact ih.step (next_cases ih hs)

/-- Induction over executions, with the transitions by cases. -/
theorem SRun.induct {cfg : HConfig} {env : Env} {e : SysEnv} {P : List SysEv → Sys Q → Prop}
    (h0 : P [] (Sys.init Q))
    (h1 : ∀ {evs s ev s'}, SRun cfg env e evs s → P evs s → SInv s → SStep cfg env e s ev s' →
      P (evs ++ [ev]) s')
    {evs : List SysEv} {s : Sys Q} (hr : SRun cfg env e evs s) : P evs s := by
  induction hr with
  | nil => exact h0
  | snoc hr hs ih => exact h1 hr ih hr.inv (next_cases hr.inv hs)

/-! ## The handler inside the process -/

/-- The handler inside the process: a history of the handler with the messages it was called with
    and the messages it emitted; an abnormal end adds the messages emitted before it. -/
def Refines (cfg : HConfig) (env : Env) (s : Sys Q) : Prop :=
  ∃ (hist : List (Tr Q)) (crash : List Msg), Run cfg env hist s.h ∧ hist.map (·.msg) = s.calls ∧
    s.emitted = emitted hist ++ crash ∧
    (((∀ err, s.pc ≠ .halt err) ∧ crash = [] ∧ s.calls = s.handled.filter (fun m => m.key != keyMonitor)) ∨
     ∃ err m h', s.pc = .halt err ∧ step cfg env m s.h = .error err h' ∧ crash = h'.outs ∧
      s.calls ++ [m] = s.handled.filter (fun m => m.key != keyMonitor))

theorem refines_same {cfg : HConfig} {env : Env} {s s' : Sys Q} (h : Refines cfg env s)
    (h1 : s'.h = s.h) (h2 : s'.calls = s.calls) (h3 : s'.emitted = s.emitted)
    (h4 : s'.handled = s.handled) (h5 : s'.pc = s.pc) : Refines cfg env s' := by
  unfold Refines
  rw [h1, h2, h3, h4, h5]
  exact h

theorem Source.not_halt {s s0 : Sys Q} {m : Msg} (h : Source s m s0) :
    (∀ err, s.pc ≠ .halt err) ∧ ∀ err, s0.pc ≠ .halt err := by
  cases h with
  | recv hpc hin => exact ⟨by rw [hpc]; simp, by simp⟩
  | timer hpc => exact ⟨by rw [hpc]; simp, by simp⟩

theorem post_frame (e : SysEnv) (m : Msg) (s : Sys Q) :
    (s.post e m).h = s.h ∧ (s.post e m).calls = s.calls ∧ (s.post e m).emitted = s.emitted ∧
    (s.post e m).handled = s.handled ∧ (s.post e m).pc = s.pc ∧ (s.post e m).socks = s.socks ∧
    (s.post e m).routed = s.routed ∧ (s.post e m).inbox = s.inbox ∧
    (s.post e m).arrived = s.arrived ∧ (s.post e m).polls = s.polls ∧
    (s.post e m).thread = s.thread ∧ (s.post e m).notified = s.notified ∧
    (s.post e m).todo = s.todo := by
  unfold Sys.post
  simp only
  split <;> simp

theorem refines_init {cfg : HConfig} {env : Env} : Refines cfg env (Sys.init Q) :=
  ⟨[], [], .nil, rfl, rfl, .inl ⟨by simp [Sys.init], rfl, rfl⟩⟩

theorem refines_step {cfg : HConfig} {env : Env} {e : SysEnv} {s s' : Sys Q} {ev : SysEv}
    (ih : Refines cfg env s) (hst : SStep cfg env e s ev s') : Refines cfg env s' := by
  cases hst with
  | arrive => exact refines_same ih rfl rfl rfl rfl rfl
  | poll ht hpc =>
    obtain ⟨hist, crash, a1, a2, a3, a4⟩ := ih
    refine ⟨hist, crash, a1, a2, a3, ?_⟩
    rcases a4 with ⟨b1, b2, b3⟩ | ⟨err, m, h', b1, b2⟩
    · exact .inl ⟨by simp, b2, b3⟩
    · rw [hpc] at b1; cases b1
  | sock => exact refines_same ih rfl rfl rfl rfl rfl
  | post ht hk =>
    obtain ⟨c1, c2, c3, c4, c5, -⟩ := post_frame e (Q := Q) _ { s with todo := _, routed := _ }
    exact refines_same ih c1 c2 c3 c4 c5
  | @idle m s0 ht hsrc hk =>
    obtain ⟨hist, crash, a1, a2, a3, a4⟩ := ih
    have hnh := hsrc.not_halt
    obtain ⟨e1, e2, e3, e4, e5⟩ := hsrc.h_eq
    refine ⟨hist, crash, by rw [← e1] at a1; exact a1, by rw [a2]; exact e4.symm,
      by rw [← a3]; exact e5, ?_⟩
    rcases a4 with ⟨b1, b2, b3⟩ | ⟨err, m, h', b1, b2⟩
    · refine .inl ⟨hnh.2, b2, ?_⟩
      show s0.calls = (s.handled ++ [m]).filter _
      rw [e4, b3, List.filter_append]
      simp [hk]
    · exact absurd b1 (hnh.1 err)
  | @handle m s0 h' ht hsrc hk hs =>
    obtain ⟨hist, crash, a1, a2, a3, a4⟩ := ih
    have hnh := hsrc.not_halt
    rcases a4 with ⟨b1, b2, b3⟩ | ⟨err, m, h', b1, b2⟩
    · subst b2
      refine ⟨hist ++ [⟨s.h, m, h'⟩], [], .snoc a1 hs, by simp [a2], ?_, .inl ⟨hnh.2, rfl, ?_⟩⟩
      · show s.emitted ++ h'.outs = _
        rw [a3]
        simp [emitted, Tr.outs]
      · show s.calls ++ [m] = (s.handled ++ [m]).filter _
        rw [b3, List.filter_append]
        simp [hk]
    · exact absurd b1 (hnh.1 err)
  | @fail m s0 err h' ht hsrc hk hs =>
    obtain ⟨hist, crash, a1, a2, a3, a4⟩ := ih
    have hnh := hsrc.not_halt
    obtain ⟨e1, e2, e3, e4, e5⟩ := hsrc.h_eq
    rcases a4 with ⟨b1, b2, b3⟩ | ⟨err, m, h', b1, b2⟩
    · subst b2
      refine ⟨hist, h'.outs, by rw [← e1] at a1; exact a1, by rw [a2]; exact e4.symm, ?_,
        .inr ⟨err, m, h', rfl, by rw [← e1] at hs; exact hs, rfl, ?_⟩⟩
      · show s.emitted ++ h'.outs = _
        rw [a3]
        simp
      · show s0.calls ++ [m] = (s.handled ++ [m]).filter _
        rw [e4, b3, List.filter_append]
        simp [hk]
    · exact absurd b1 (hnh.1 err)
  | connect => exact refines_same ih rfl rfl rfl rfl rfl
  | take => exact refines_same ih rfl rfl rfl rfl rfl

theorem SRun.refines {cfg : HConfig} {env : Env} {e : SysEnv} {evs : List SysEv} {s : Sys Q}
    (hr : SRun cfg env e evs s) : Refines cfg env s :=
  SRun.induct (P := fun _ s => Refines cfg env s) refines_init
    (fun _ ih _ hst => refines_step ih hst) hr

/-! ## Sockets -/

/-- The messages for a destination. -/
def msgsFor (k : String) (l : List Msg) : List Msg := l.filter (fun m => m.key == k)

theorem SRun.socks {cfg : HConfig} {env : Env} {e : SysEnv} {evs : List SysEv} {s : Sys Q}
    (hr : SRun cfg env e evs s) {k : String} (hk : k ∈ brokerWiring.order) :
    s.socks k = (msgsFor k s.routed).foldl Router.sendMessage Router.fresh := by
  refine SRun.induct (P := fun _ s =>
    s.socks k = (msgsFor k s.routed).foldl Router.sendMessage Router.fresh) rfl ?_ hr
  intro evs s ev s' hr ih hi hst
  cases hst with
  | arrive => exact ih
  | poll => exact ih
  | @sock m t ht hm =>
    show (if k = m.key then _ else _) = _
    by_cases hkm : k = m.key
    · subst hkm
      rw [if_pos rfl, ih]
      simp [msgsFor]
    · rw [if_neg hkm, ih]
      have : (m.key == k) = false := by simpa using Ne.symm hkm
      simp [msgsFor, this]
  | @post m t ht hm =>
    obtain ⟨-, -, -, -, -, c6, c7, -⟩ := post_frame e m { s with todo := t, routed := s.routed ++ [m] }
    rw [c6, c7]
    have : (m.key == k) = false := by
      rw [hm]
      rcases order_cases hk with h | h | h <;> rw [h] <;> decide
    show s.socks k = _
    rw [ih]
    simp [msgsFor, this]
  | idle ht hsrc =>
    cases hsrc <;> exact ih
  | handle ht hsrc =>
    cases hsrc <;> exact ih
  | fail ht hsrc =>
    cases hsrc <;> exact ih
  | connect => exact ih
  | take => exact ih

/-! ## The way to the notifier thread -/

/-- Frames of a message for the notifier thread. -/
def wire (m : Msg) : List String := m.key :: m.identity :: m.data

/-- The way of the notifications. -/
structure Pipeline (s : Sys Q) : Prop where
  posted : s.posted = msgsFor keyNotifier s.routed
  kept : ∃ rest : List Msg, s.pipe = rest.map wire ∧
    (s.notified.map (·.1) ++ rest).Sublist s.posted ∧
    (s.lost = [] → s.posted = s.notified.map (·.1) ++ rest) ∧
    s.posted.length = s.notified.length + rest.length + s.lost.length

theorem wire_inj {a b : Msg} (h : wire a = wire b) : a = b := by
  obtain ⟨k, i, d⟩ := a
  obtain ⟨k', i', d'⟩ := b
  simp [wire] at h
  simp [h]

theorem SRun.pipeline {cfg : HConfig} {env : Env} {e : SysEnv} {evs : List SysEv} {s : Sys Q}
    (hr : SRun cfg env e evs s) : Pipeline s := by
  refine SRun.induct (P := fun _ s => Pipeline s) ?_ ?_ hr
  · exact ⟨rfl, [], rfl, by simp [Sys.init], fun _ => rfl, rfl⟩
  · intro evs s ev s' hr ih hi hst
    cases hst with
    | arrive => exact ⟨ih.posted, ih.kept⟩
    | poll => exact ⟨ih.posted, ih.kept⟩
    | @sock m t ht hm =>
      refine ⟨?_, ih.kept⟩
      show s.posted = msgsFor _ (s.routed ++ [m])
      have : (m.key == keyNotifier) = false := by
        rcases order_cases hm with h | h | h <;> rw [h] <;> decide
      rw [ih.posted]
      simp [msgsFor, this]
    | @post m t ht hm =>
      have hsh := hi.shapes m (by rw [hi.split, ht]; simp)
      have hn : Spec.Notifies m.data := by
        rcases OutShape.key_cases hsh with h | h
        · rw [hm] at h; exact absurd h (by decide)
        · exact h.2
      have hp : s.posted ++ [m] = msgsFor keyNotifier (s.routed ++ [m]) := by
        rw [ih.posted]
        simp [msgsFor, hm]
      obtain ⟨rest, k1, k2, k3, k4⟩ := ih.kept
      rw [post_eq e (by exact hi.closed) hn.ne_nil]
      split
      · refine ⟨hp, rest, k1, k2.trans (List.sublist_append_left _ _), ?_, ?_⟩
        · intro h0
          have h0 : s.lost ++ [m] = [] := h0
          simp at h0
        · show (s.posted ++ [m]).length = s.notified.length + rest.length + (s.lost ++ [m]).length
          simp only [List.length_append, List.length_cons, List.length_nil, k4]
          omega
      · refine ⟨hp, rest ++ [m], ?_, ?_, ?_, ?_⟩
        · show s.pipe ++ _ = _
          rw [k1]; simp [wire]
        · show (s.notified.map (·.1) ++ (rest ++ [m])).Sublist (s.posted ++ [m])
          rw [← List.append_assoc]
          exact k2.append (List.Sublist.refl _)
        · intro h0
          show s.posted ++ [m] = s.notified.map (·.1) ++ (rest ++ [m])
          rw [k3 h0]; simp
        · show (s.posted ++ [m]).length = s.notified.length + (rest ++ [m]).length + s.lost.length
          simp only [List.length_append, List.length_cons, List.length_nil, k4]
          omega
    | idle ht hsrc =>
      cases hsrc <;> exact ⟨ih.posted, ih.kept⟩
    | handle ht hsrc =>
      cases hsrc <;> exact ⟨ih.posted, ih.kept⟩
    | fail ht hsrc =>
      cases hsrc <;> exact ⟨ih.posted, ih.kept⟩
    | connect => exact ⟨ih.posted, ih.kept⟩
    | @take outcome m rest' acts ht hp hn =>
      obtain ⟨rest, k1, k2, k3, k4⟩ := ih.kept
      cases rest with
      | nil => rw [hp] at k1; cases k1
      | cons m' rest =>
        rw [hp] at k1
        obtain ⟨hm, hrest⟩ := List.cons.inj k1
        have := wire_inj (a := m) (b := m') hm
        subst this
        refine ⟨ih.posted, rest, hrest, ?_, ?_, ?_⟩
        · show ((s.notified ++ [(m, acts)]).map (·.1) ++ rest).Sublist s.posted
          simpa using k2
        · intro h0
          show s.posted = (s.notified ++ [(m, acts)]).map (·.1) ++ rest
          rw [k3 h0]; simp
        · show s.posted.length = (s.notified ++ [(m, acts)]).length + rest.length + s.lost.length
          simp only [List.length_append, List.length_cons, List.length_nil, k4]
          omega

/-- What the notifier did was done by the status notifier handler. -/
theorem SRun.notified {cfg : HConfig} {env : Env} {e : SysEnv} {evs : List SysEv} {s : Sys Q}
    (hr : SRun cfg env e evs s) : ∀ x ∈ s.notified, ∃ outcome,
      notifierOnRequest e.ncfg outcome x.1 = .ok x.2 := by
  refine SRun.induct (P := fun _ s => ∀ x ∈ s.notified, ∃ outcome,
      notifierOnRequest e.ncfg outcome x.1 = .ok x.2) (by simp [Sys.init]) ?_ hr
  intro evs s ev s' hr ih hi hst
  cases hst with
  | arrive => exact ih
  | poll => exact ih
  | sock => exact ih
  | post ht hm =>
    obtain ⟨-, -, -, -, -, -, -, -, -, -, -, c12, -⟩ := post_frame e (Q := Q) _ { s with todo := _, routed := _ }
    rw [c12]; exact ih
  | idle ht hsrc => cases hsrc <;> exact ih
  | handle ht hsrc => cases hsrc <;> exact ih
  | fail ht hsrc => cases hsrc <;> exact ih
  | connect => exact ih
  | @take outcome m rest acts ht hp hn =>
    intro x hx
    rcases List.mem_append.1 hx with h | h
    · exact ih x h
    · rw [List.mem_singleton.1 h]
      exact ⟨outcome, hn⟩

end Broker
