import Verif.Spec.Nested
import Verif.Proof.LoopCount
import Verif.Proof.System

/-!
# Executions of the reactor with the broker's handlers are executions of the process
-/

set_option linter.unusedSectionVars false

namespace Broker.Reactor

variable {Q : Type} [QueueManager Q] {cfg : HConfig} {env : Env} {e : SysEnv}
  {impl : (Nat → Bool) → Msg → HState Q → Prog (HState Q)}

abbrev BSt (e : SysEnv) (impl : (Nat → Bool) → Msg → HState Q → Prog (HState Q)) :=
  St (brokerSetup e impl)

/-- The state of the broker handler. -/
def hOf (g : BSt e impl) : HState Q := g.obj .broker

/-- The notifications dealt with. -/
def nOf (g : BSt e impl) : List (Msg × List NAct) := g.obj .notifier

/-- What does not concern the main thread. -/
structure Side (evs : List (Ev HandlerRef)) (g : BSt e impl) (s : Sys Q) : Prop where
  inbox : ∀ k, g.inbox k = s.inbox k
  inproc : g.inproc = s.inproc
  idle : g.thr .broker = ⟨.starting, [], none, ⟨[], []⟩⟩
  pipe : (g.thr .notifier).pipe = s.pipe
  status : ((g.thr .notifier).status = .starting ∧ s.thread = .starting) ∨
    ((g.thr .notifier).status = .running ∧ s.thread = .running)
  cur : ((g.thr .notifier).cur = none ∧ nOf g = s.notified) ∨
    (g.thr .notifier).cur = some (.done s.notified)
  dealer : (g.thr .notifier).dealer = ⟨[], []⟩
  posted : (g.posted .notifier).map (·.1) = s.posted
  lost : ((g.posted .notifier).filter (fun p => !p.2)).map (·.1) = s.lost
  taken : g.taken .notifier = s.notified.map (·.1)
  sent : ∀ k, s.socks k = (g.sent.filter (fun m => m.key == k)).foldl Router.sendMessage Router.fresh
  arrived : ∀ k, arrivals k evs = (s.arrived.filter (fun x => x.1 == k)).map (·.2)

inductive PlaceRel : Place → Pc → Prop
  | poll : PlaceRel .poll .poll
  | serve {ks : List String} {el : Int} : PlaceRel (.serve (ks.map some) el) (.serve ks el)
  | halt {err : Err} : PlaceRel .halt (.halt err)

inductive Fin (g : BSt e impl) (s : Sys Q) : Bool × HState Q → Prop
  | ok (h1 : PlaceRel g.place s.pc) (h2 : g.place ≠ .halt) (h3 : g.calls.map (·.2) = s.calls) :
    Fin g s (true, s.h)
  | fail {err : Err} {v : HState Q} (h1 : s.pc = .halt err) : Fin g s (false, v)

/-- What concerns the main thread. -/
inductive Phase (cfg : HConfig) (env : Env) (g : BSt e impl) (s : Sys Q) : Prop
  | idle (h1 : g.stack = [] ∨ (∃ m, g.stack = [.loop m []]) ∧ g.place ≠ .halt) (h2 : s.todo = [])
      (h3 : PlaceRel g.place s.pc) (h4 : g.asked = s.routed)
      (h5 : g.place ≠ .halt → hOf g = s.h ∧ g.calls.map (·.2) = s.calls)
  | ok {m : Msg} {h' : HState Q} (h1 : g.stack = [.loop m [.broker]])
      (h2 : step cfg env m (hOf g) = .ok () h') (h3 : s.h = h') (h4 : s.todo = h'.outs)
      (h5 : PlaceRel g.place s.pc) (h6 : g.place ≠ .halt) (h7 : g.calls.map (·.2) ++ [m] = s.calls)
      (h8 : g.asked = s.routed)
  | fail {m : Msg} {err : Err} {h' : HState Q} (h1 : g.stack = [.loop m [.broker]])
      (h2 : step cfg env m (hOf g) = .error err h') (h3 : s.todo = h'.outs)
      (h4 : s.pc = .halt err) (h5 : g.asked = s.routed)
  | body {p : Prog (HState Q)} {m : Msg} {fin : Bool × HState Q}
      (h1 : g.stack = [.body .broker p, .loop m []]) (h2 : p.run = (s.todo, fin))
      (h3 : Fin g s fin) (h4 : g.asked = s.routed)
  | wait {k : HState Q → Prog (HState Q)} {m : Msg} {fin : Bool × HState Q}
      (h1 : g.stack = [.wait .broker k, .loop m []]) (h2 : (k (hOf g)).run = (s.todo, fin))
      (h3 : Fin g s fin) (h4 : g.asked = s.routed)
  | sending {k : HState Q → Prog (HState Q)} {m m' : Msg} {rest : List Msg} {fin : Bool × HState Q}
      (h1 : g.stack = [.loop m' [.notifier], .wait .broker k, .loop m []]) (hk : m'.key = keyNotifier)
      (h2 : (k (hOf g)).run = (rest, fin)) (h0 : s.todo = m' :: rest)
      (h3 : Fin g s fin) (h4 : g.asked = s.routed ++ [m'])
  | sent {k : HState Q → Prog (HState Q)} {m m' : Msg} {fin : Bool × HState Q}
      (h1 : g.stack = [.loop m' [], .wait .broker k, .loop m []])
      (h2 : (k (hOf g)).run = (s.todo, fin))
      (h3 : Fin g s fin) (h4 : g.asked = s.routed)

theorem Fin.congr {g g' : BSt e impl} {s s' : Sys Q} {fin : Bool × HState Q} (h : Fin g s fin)
    (h1 : g'.place = g.place) (h2 : g'.calls = g.calls) (h3 : s'.pc = s.pc) (h4 : s'.calls = s.calls)
    (h5 : s'.h = s.h) : Fin g' s' fin := by
  cases h with
  | ok g1 g2 g3 => rw [← h5]; exact .ok (by rw [h1, h3]; exact g1) (by rw [h1]; exact g2) (by rw [h2, h4]; exact g3)
  | fail g1 => exact .fail (by rw [h3]; exact g1)

theorem Phase.congr {g g' : BSt e impl} {s s' : Sys Q} (h : Phase cfg env g s)
    (e0 : g'.stack = g.stack) (e1 : g'.place = g.place) (e2 : g'.calls = g.calls)
    (e3 : g'.asked = g.asked) (e4 : hOf g' = hOf g) (f1 : s'.todo = s.todo) (f2 : s'.pc = s.pc)
    (f3 : s'.h = s.h) (f4 : s'.calls = s.calls) (f5 : s'.routed = s.routed) : Phase cfg env g' s' := by
  cases h with
  | idle h1 h2 h3 h4 h5 =>
    exact .idle (by rw [e0, e1]; exact h1) (by rw [f1]; exact h2) (by rw [e1, f2]; exact h3)
      (by rw [e3, f5]; exact h4) (by rw [e1, e2, e4, f3, f4]; exact h5)
  | ok h1 h2 h3 h4 h5 h6 h7 h8 =>
    exact .ok (e0.trans h1) (by rw [e4]; exact h2) (f3.trans h3) (f1.trans h4) (by rw [e1, f2]; exact h5)
      (by rw [e1]; exact h6) (by rw [e2, f4]; exact h7) (by rw [e3, f5]; exact h8)
  | fail h1 h2 h3 h4 h5 =>
    exact .fail (e0.trans h1) (by rw [e4]; exact h2) (f1.trans h3) (f2.trans h4) (by rw [e3, f5]; exact h5)
  | body h1 h2 h3 h4 =>
    exact .body (e0.trans h1) (by rw [f1]; exact h2) (h3.congr e1 e2 f2 f4 f3) (by rw [e3, f5]; exact h4)
  | wait h1 h2 h3 h4 =>
    exact .wait (e0.trans h1) (by rw [e4, f1]; exact h2) (h3.congr e1 e2 f2 f4 f3) (by rw [e3, f5]; exact h4)
  | sending h1 hk h2 h0 h3 h4 =>
    exact .sending (e0.trans h1) hk (by rw [e4]; exact h2) (f1.trans h0) (h3.congr e1 e2 f2 f4 f3)
      (by rw [e3, f5]; exact h4)
  | sent h1 h2 h3 h4 =>
    exact .sent (e0.trans h1) (by rw [e4, f1]; exact h2) (h3.congr e1 e2 f2 f4 f3) (by rw [e3, f5]; exact h4)

/-- Side conditions when only the main thread moves. -/
theorem Side.congr {evs : List (Ev HandlerRef)} {g g' : BSt e impl} {s s' : Sys Q} (h : Side evs g s)
    (e1 : ∀ k, g'.inbox k = s'.inbox k) (e2 : g'.inproc = g.inproc) (e3 : g'.thr = g.thr) (e4 : nOf g' = nOf g)
    (e5 : g'.posted = g.posted) (e6 : g'.taken = g.taken)
    (e7 : ∀ k, s'.socks k = (g'.sent.filter (fun m => m.key == k)).foldl Router.sendMessage Router.fresh)
    (f2 : s'.inproc = s.inproc) (f3 : s'.pipe = s.pipe) (f4 : s'.thread = s.thread)
    (f5 : s'.notified = s.notified) (f6 : s'.posted = s.posted) (f7 : s'.lost = s.lost)
    (f8 : s'.arrived = s.arrived) {ev : Ev HandlerRef} (hev : ∀ k i d, ev ≠ .arrive k i d) :
    Side (evs ++ [ev]) g' s' where
  inbox := e1
  inproc := by rw [e2, f2]; exact h.inproc
  idle := by rw [e3]; exact h.idle
  pipe := by rw [e3, f3]; exact h.pipe
  status := by rw [e3, f4]; exact h.status
  cur := by rw [e3, e4, f5]; exact h.cur
  dealer := by rw [e3]; exact h.dealer
  posted := by rw [e5, f6]; exact h.posted
  lost := by rw [e5, f7]; exact h.lost
  taken := by rw [e6, f5]; exact h.taken
  sent := e7
  arrived := fun k => by rw [arrivals_snoc hev, f8]; exact h.arrived k

/-- Closes the goals of `Side.congr`. -/
local macro "side " h:term : tactic => `(tactic| (apply Side.congr $h <;>
  first | rfl | (exact fun k => Side.inbox $h k) | (exact fun k => Side.sent $h k) | (simp [nOf]; done)))

theorem PlaceRel.poll_inv {pc : Pc} (h : PlaceRel .poll pc) : pc = .poll := by cases h; rfl

theorem PlaceRel.serve_inv {l : List (Option String)} {el : Int} {pc : Pc}
    (h : PlaceRel (.serve l el) pc) : ∃ ks, l = ks.map some ∧ pc = .serve ks el := by
  cases h; exact ⟨_, rfl, rfl⟩

theorem quiet {g : BSt e impl} {evs : List (Ev HandlerRef)} {s : Sys Q} (hs : Side evs g s)
    (a : HandlerRef) : (g.thr a).dealer.out = [] := by
  cases a with
  | broker => rw [hs.idle]
  | notifier => rw [hs.dealer]

theorem not_readable {g : BSt e impl} {evs : List (Ev HandlerRef)} {s : Sys Q} (hs : Side evs g s) :
    g.readable = false := by
  unfold St.readable
  rw [List.any_eq_false]
  intro x _
  simp [quiet hs]

theorem mmRange_broker {k : String} (h : k = "clients" ∨ k = "workers" ∨ k = "timer") :
    mmRange k brokerWiring.handlers = [.broker] := by
  rcases h with rfl | rfl | rfl <;> decide

/-- A message from the loop is handled. -/
theorem process_phase {evs : List (Ev HandlerRef)} {g : BSt e impl} {s : Sys Q} {m : Msg}
    (hs : Side evs g s) (h1 : g.stack = []) (h2 : s.todo = []) (h3 : PlaceRel g.place s.pc)
    (h4 : g.place ≠ .halt) (h5 : hOf g = s.h) (h6 : g.calls.map (·.2) = s.calls)
    (h7 : g.asked = s.routed)
    (hk : m.key = "clients" ∨ m.key = "workers" ∨ m.key = "monitor" ∨ m.key = "timer") :
    Side evs (St.process m g) (Sys.process cfg env e m s) ∧
      Phase cfg env (St.process m g) (Sys.process cfg env e m s) := by
  by_cases hm : m.key = "monitor"
  · unfold Sys.process
    rw [process_monitor hm]
    refine ⟨⟨hs.inbox, hs.inproc, hs.idle, hs.pipe, hs.status, hs.cur, hs.dealer, hs.posted, hs.lost,
      hs.taken, hs.sent, hs.arrived⟩, .idle (.inr ⟨⟨m, ?_⟩, h4⟩) h2 h3 h7 fun _ => ⟨h5, h6⟩⟩
    show .loop m (mmRange m.key brokerWiring.handlers) :: g.stack = _
    rw [h1, hm]
    rfl
  · have hk' : m.key = "clients" ∨ m.key = "workers" ∨ m.key = "timer" := by
      rcases hk with h | h | h | h
      · exact .inl h
      · exact .inr (.inl h)
      · exact absurd h hm
      · exact .inr (.inr h)
    have hst : (St.process m g).stack = [.loop m [.broker]] := by
      show .loop m (mmRange m.key brokerWiring.handlers) :: g.stack = _
      rw [h1, mmRange_broker hk']
    unfold Sys.process
    rw [process_broker hk']
    simp only [List.foldl_cons, List.foldl_nil, Sys.deliver, Sys.call, Bool.false_eq_true, if_false]
    cases hstep : step cfg env m s.h with
    | ok u h' =>
      refine ⟨⟨hs.inbox, hs.inproc, hs.idle, hs.pipe, hs.status, hs.cur, hs.dealer, hs.posted, hs.lost,
        hs.taken, hs.sent, hs.arrived⟩, .ok (m := m) (h' := h') hst ?_ rfl ?_ h3 h4 ?_ h7⟩
      · show step cfg env m (hOf g) = _
        rw [h5, hstep]
      · simp [h2]
      · show g.calls.map (·.2) ++ [m] = s.calls ++ [m]
        rw [h6]
    | error err h' =>
      refine ⟨⟨hs.inbox, hs.inproc, hs.idle, hs.pipe, hs.status, hs.cur, hs.dealer, hs.posted, hs.lost,
        hs.taken, hs.sent, hs.arrived⟩, .fail (m := m) (err := err) (h' := h') hst ?_ ?_ rfl h7⟩
      · show step cfg env m (hOf g) = _
        rw [h5, hstep]
      · simp [h2]

theorem notifies {s : Sys Q} (hi : SInv s) {m : Msg} {t : List Msg} (ht : s.todo = m :: t)
    (hk : m.key = keyNotifier) : m.data ≠ [] := by
  have hsh := hi.shapes m (by rw [hi.split, ht]; simp)
  rcases OutShape.key_cases hsh with h | h
  · rw [hk] at h; exact absurd h (by decide)
  · exact h.2.ne_nil

/-- A notification is passed on. -/
theorem post_side {evs : List (Ev HandlerRef)} {g : BSt e impl} {s : Sys Q} {m : Msg}
    (hs : Side evs g s) (hc : s.inproc.cur = none) (hd : m.data ≠ []) :
    Side evs (St.post .notifier m g) (Sys.post e m s) := by
  have hsend : g.inproc.sendAll (asyncFrames e.uid m)
      = ⟨none, s.inproc.sent ++ [(e.uid, m.key :: m.identity :: m.data)]⟩ := by
    rw [hs.inproc]; exact sendAll_async hd hc _
  have hdr : g.drops .notifier = s.drops e := by
    unfold St.drops Sys.drops
    have h1 : (g.posted .notifier).length = s.posted.length := by rw [← hs.posted]; simp
    have h2 : ((g.thr .notifier).status == Status.starting) = (s.thread == Thread.starting) := by
      rcases hs.status with ⟨h, h'⟩ | ⟨h, h'⟩ <;> rw [h, h'] <;> rfl
    rw [h2, h1, hs.pipe]
    rfl
  have hdb : g.drops .broker = true := by
    unfold St.drops
    rw [hs.idle]; rfl
  have hthr : (St.post .notifier m g).thr = g.arriveAt [(e.uid, m.key :: m.identity :: m.data)] := by
    show g.arriveAt (List.drop _ (g.inproc.sendAll (asyncFrames e.uid m)).sent) = _
    rw [hsend, hs.inproc, List.drop_left]
  have hin : (St.post .notifier m g).inproc = ⟨none, s.inproc.sent ++ [(e.uid, m.key :: m.identity :: m.data)]⟩ := by
    show g.inproc.sendAll (asyncFrames e.uid m) = _
    exact hsend
  have hpo : (St.post .notifier m g).posted .notifier = g.posted .notifier ++ [(m, !s.drops e)] := by
    rw [← hdr]
    simp [St.post]
  have hbr : (St.post .notifier m g).thr .broker = g.thr .broker := by
    rw [hthr]; unfold St.arriveAt; rw [if_pos hdb]
  have hno : (St.post .notifier m g).thr .notifier = if s.drops e then g.thr .notifier else
      { g.thr .notifier with pipe := (g.thr .notifier).pipe ++ [m.key :: m.identity :: m.data] } := by
    rw [hthr]; unfold St.arriveAt
    rw [hdr]
    have : (brokerSetup e impl).uid .notifier = e.uid := rfl
    split
    · rfl
    · simp [this]
  rw [post_eq e hc hd]
  cases hd : s.drops e with
  | true =>
    simp only [hd] at hno hpo
    refine ⟨hs.inbox, hin, hbr.trans hs.idle, ?_, ?_, ?_, ?_, ?_, ?_, hs.taken, hs.sent, hs.arrived⟩
    · rw [hno]; exact hs.pipe
    · rw [hno]; exact hs.status
    · rw [hno]; exact hs.cur
    · rw [hno]; exact hs.dealer
    · rw [hpo]; simp [hs.posted]
    · rw [hpo]; simp [hs.lost]
  | false =>
    simp only [hd] at hno hpo
    refine ⟨hs.inbox, hin, hbr.trans hs.idle, ?_, ?_, ?_, ?_, ?_, ?_, hs.taken, hs.sent, hs.arrived⟩
    · rw [hno]; simp [hs.pipe]
    · rw [hno]; exact hs.status
    · rw [hno]; exact hs.cur
    · rw [hno]; exact hs.dealer
    · rw [hpo]; simp [hs.posted]
    · rw [hpo]; simp [hs.lost]

theorem Side.snoc {evs : List (Ev HandlerRef)} {g : BSt e impl} {s : Sys Q} (h : Side evs g s)
    {ev : Ev HandlerRef} (hev : ∀ k i d, ev ≠ .arrive k i d) : Side (evs ++ [ev]) g s :=
  ⟨h.inbox, h.inproc, h.idle, h.pipe, h.status, h.cur, h.dealer, h.posted, h.lost, h.taken, h.sent,
    fun k => by rw [arrivals_snoc hev]; exact h.arrived k⟩

theorem nested_step (hf : Faithful cfg env impl) {evs : List (Ev HandlerRef)} {evs' : List SysEv}
    {g g' : BSt e impl} {s : Sys Q} {ev : Ev HandlerRef} (hr : SRun cfg env e evs' s) (hi : SInv s)
    (hs : Side evs g s) (hp : Phase cfg env g s) (hm : Move (brokerSetup e impl) ev g g') :
    ∃ evs'' s', SRun cfg env e (evs' ++ evs'') s' ∧ Side (evs ++ [ev]) g' s' ∧ Phase cfg env g' s' := by
  have stay : ∀ (g' : BSt e impl), Side (evs ++ [ev]) g' s → Phase cfg env g' s →
      ∃ evs'' s', SRun cfg env e (evs' ++ evs'') s' ∧ Side (evs ++ [ev]) g' s' ∧
        Phase cfg env g' s' := fun g' h1 h2 => ⟨[], s, by simpa using hr, h1, h2⟩
  have move : ∀ (ev' : SysEv) (s' : Sys Q) (g' : BSt e impl), s.next cfg env e ev' = some s' →
      Side (evs ++ [ev]) g' s' → Phase cfg env g' s' →
      ∃ evs'' s', SRun cfg env e (evs' ++ evs'') s' ∧ Side (evs ++ [ev]) g' s' ∧
        Phase cfg env g' s' := fun ev' s' g' h0 h1 h2 => ⟨[ev'], s', hr.snoc h0, h1, h2⟩
  cases hm with
  | @arrive g k i d hk hd =>
    refine move (.arrive k i d) _ _ (by simp only [Sys.next]; exact if_pos ⟨hk, hd⟩) ?_ ?_
    · refine ⟨fun k' => ?_, hs.inproc, hs.idle, hs.pipe, hs.status, hs.cur, hs.dealer, hs.posted, hs.lost,
        hs.taken, hs.sent, fun k' => ?_⟩
      · by_cases hk' : k' = k
        · subst hk'; simp [hs.inbox]
        · simp [hk', hs.inbox]
      · have := hs.arrived k'
        unfold arrivals at this ⊢
        rw [List.filterMap_append, this]
        by_cases hk' : k = k' <;> simp [hk']
    · exact hp.congr rfl rfl rfl rfl rfl rfl rfl rfl rfl rfl
  | @poll g b c ready h1 h2 h3 =>
    cases hp with
    | idle g1 g2 g3 g4 g5 =>
      rw [h2] at g3
      have hpc := g3.poll_inv
      have hready : ready = (brokerWiring.order.filter (fun k => !(s.inbox k).isEmpty)).map some := by
        rw [h3, not_readable hs]
        have : g.inbox = s.inbox := funext hs.inbox
        rw [this]
        exact List.append_nil _
      refine move (.poll b c) { s with
          pc := .serve (brokerWiring.order.filter (fun k => !(s.inbox k).isEmpty)) (elapsedMs b c)
          polls := s.polls ++ [(b, c)] } _
        (by simp only [Sys.next, Sys.pollReturns, g2, hpc]) ?_ ?_
      · side hs
      · refine .idle (.inl h1) g2 ?_ g4 fun _ => g5 (by rw [h2]; simp)
        rw [hready]; exact .serve
    | _ => simp_all
  | @socket g x pick k i d rest ks el h1 h2 h3 =>
    cases hp with
    | idle g1 g2 g3 g4 g5 =>
      rw [h2] at g3
      obtain ⟨ks', e1, hpc⟩ := g3.serve_inv
      cases ks' with
      | nil => cases e1
      | cons k' ks' =>
        obtain ⟨e2, rfl⟩ := List.cons.inj e1
        cases e2
        have hord := ((hi.ready _ _ hpc).1.subset) (List.mem_cons_self)
        have hkey : k = "clients" ∨ k = "workers" ∨ k = "monitor" ∨ k = "timer" := by
          rcases order_cases hord with h | h | h <;> simp [h]
        have hin : s.inbox k = (i, d) :: rest := by rw [← hs.inbox]; exact h3
        have g5 := g5 (by rw [h2]; simp)
        have hs' : Side (evs ++ [.main x pick]) { g with
            place := .serve (ks'.map some) el, inbox := Function.update g.inbox k rest }
            { s with pc := .serve ks' el, inbox := fun x => if x = k then rest else s.inbox x } := by
          apply Side.congr hs <;> first | rfl | exact hs.sent | (simp; done) | skip
          intro k'
          by_cases hk' : k' = k
          · subst hk'; simp
          · simp [hk', hs.inbox]
        obtain ⟨q1, q2⟩ := process_phase (cfg := cfg) (env := env) (m := ⟨k, i, d⟩) hs' h1 g2 .serve
          (by simp) g5.1 g5.2 g4 hkey
        refine move .main _ _ ?_ q1 q2
        simp only [Sys.next, Sys.main, g2, hpc, hin, receiveMessage_all]
        rfl
    | _ => simp_all
  | @internal g x a fs rest ks el m r h1 h2 h3 h4 =>
    rw [quiet hs] at h3; cases h3
  | @timer g x pick el h1 h2 =>
    cases hp with
    | idle g1 g2 g3 g4 g5 =>
      rw [h2] at g3
      obtain ⟨ks', e1, hpc⟩ := g3.serve_inv
      cases ks' with
      | cons k' ks' => cases e1
      | nil =>
        have g5 := g5 (by rw [h2]; simp)
        have hs' : Side (evs ++ [.main x pick]) { g with place := .poll } { s with pc := .poll } :=
          by side hs
        obtain ⟨q1, q2⟩ := process_phase (cfg := cfg) (env := env) (m := timerMsg el) hs' h1 g2 .poll
          (by simp) g5.1 g5.2 g4 (.inr (.inr (.inr rfl)))
        refine move .main _ _ ?_ q1 q2
        simp only [Sys.next, Sys.main, g2, hpc]
    | _ => simp_all
  | @ret g x pick m st h1 =>
    have hs' : Side (evs ++ [.main x pick]) { g with stack := st } s :=
      by side hs
    refine stay _ hs' ?_
    cases hp with
    | idle g1 g2 g3 g4 g5 =>
      rcases g1 with g1 | ⟨⟨m', g1⟩, g6⟩
      · rw [g1] at h1; cases h1
      · rw [g1] at h1; cases h1
        exact .idle (.inl rfl) g2 g3 g4 g5
    | ok g1 => rw [g1] at h1; cases h1
    | fail g1 => rw [g1] at h1; cases h1
    | body g1 => rw [g1] at h1; cases h1
    | wait g1 => rw [g1] at h1; cases h1
    | sending g1 => rw [g1] at h1; cases h1
    | sent g1 g2 g3 g4 =>
      rw [g1] at h1; cases h1
      exact .wait rfl g2 (g3.congr rfl rfl rfl rfl rfl) g4
  | @post g x pick m a as st h1 h2 =>
    cases hp with
    | idle g1 g2 g3 g4 g5 =>
      rcases g1 with g1 | ⟨⟨m', g1⟩, g6⟩
      · rw [g1] at h1; cases h1
      · rw [g1] at h1; cases h1
    | ok g1 => rw [g1] at h1; cases h1; cases h2
    | fail g1 => rw [g1] at h1; cases h1; cases h2
    | body g1 => rw [g1] at h1; cases h1
    | wait g1 => rw [g1] at h1; cases h1
    | @sending k m0 m' rest fin g1 gk g2 g0 g3 g4 =>
      rw [g1] at h1; cases h1
      have hs0 : Side (evs ++ [.main x pick]) { g with stack := [.loop m [], .wait .broker k, .loop m0 []] }
          { s with todo := rest, routed := s.routed ++ [m] } :=
        by side hs
      refine move .main (Sys.post e m { s with todo := rest, routed := s.routed ++ [m] }) _ ?_
        (post_side hs0 hi.closed (notifies hi g0 gk)) ?_
      · simp only [Sys.next, Sys.main, g0, Sys.send, send_notifier gk]
        rfl
      · have hq : (Sys.post e m { s with todo := rest, routed := s.routed ++ [m] }).todo = rest ∧
            (Sys.post e m { s with todo := rest, routed := s.routed ++ [m] }).pc = s.pc ∧
            (Sys.post e m { s with todo := rest, routed := s.routed ++ [m] }).h = s.h ∧
            (Sys.post e m { s with todo := rest, routed := s.routed ++ [m] }).calls = s.calls ∧
            (Sys.post e m { s with todo := rest, routed := s.routed ++ [m] }).routed
              = s.routed ++ [m] := by
          unfold Sys.post; simp only []; split <;> exact ⟨rfl, rfl, rfl, rfl, rfl⟩
        obtain ⟨q1, q2, q3, q4, q5⟩ := hq
        exact .sent rfl (by rw [q1]; exact g2) (g3.congr rfl rfl q2 q4 q3) (by rw [q5]; exact g4)
    | sent g1 => rw [g1] at h1; cases h1
  | @call g x pick m a as st h1 h2 =>
    have hs' : ∀ st c re, Side (evs ++ [.main x pick]) { g with stack := st, calls := c, reentered := re } s :=
      fun _ _ _ => by side hs
    refine stay _ (hs' _ _ _) ?_
    cases hp with
    | idle g1 g2 g3 g4 g5 =>
      rcases g1 with g1 | ⟨⟨m', g1⟩, g6⟩
      · rw [g1] at h1; cases h1
      · rw [g1] at h1; cases h1
    | ok g1 g2 g3 g4 g5 g6 g7 g8 =>
      rw [g1] at h1; cases h1
      have hrun := hf x m (hOf g)
      rw [g2] at hrun
      refine .body rfl (fin := (true, s.h)) ?_ (.ok g5 g6 ?_) g8
      · rw [g4, g3]; exact hrun
      · simpa using g7
    | @fail m1 err h' g1 g2 g3 g4 g5 =>
      rw [g1] at h1; cases h1
      have hrun := hf x m (hOf g)
      rw [g2] at hrun
      refine .body rfl (fin := (false, h')) ?_ (.fail g4) g5
      rw [g3]; exact hrun
    | body g1 => rw [g1] at h1; cases h1
    | wait g1 => rw [g1] at h1; cases h1
    | sending g1 => rw [g1] at h1; cases h1; cases h2
    | sent g1 => rw [g1] at h1; cases h1
  | @done g x pick a v st h1 =>
    cases hp with
    | idle g1 g2 g3 g4 g5 =>
      rcases g1 with g1 | ⟨⟨m', g1⟩, g6⟩
      · rw [g1] at h1; cases h1
      · rw [g1] at h1; cases h1
    | ok g1 => rw [g1] at h1; cases h1
    | fail g1 => rw [g1] at h1; cases h1
    | @body p m fin g1 g2 g3 g4 =>
      rw [g1] at h1; cases h1
      have hs' : Side (evs ++ [.main x pick]) { g with
          obj := Function.update g.obj .broker v, stack := [.loop m []] } s :=
        by side hs
      refine stay _ hs' ?_
      simp only [Prog.run, Prod.mk.injEq] at g2
      obtain ⟨e1, e2⟩ := g2
      subst e2
      cases g3 with
      | ok q1 q2 q3 =>
        refine .idle (.inr ⟨⟨m, rfl⟩, q2⟩) e1.symm q1 g4 fun _ => ⟨?_, q3⟩
        exact Function.update_self HandlerRef.broker _ g.obj
    | wait g1 => rw [g1] at h1; cases h1
    | sending g1 => rw [g1] at h1; cases h1
    | sent g1 => rw [g1] at h1; cases h1
  | @throw g x pick a v st h1 =>
    cases hp with
    | idle g1 g2 g3 g4 g5 =>
      rcases g1 with g1 | ⟨⟨m', g1⟩, g6⟩
      · rw [g1] at h1; cases h1
      · rw [g1] at h1; cases h1
    | ok g1 => rw [g1] at h1; cases h1
    | fail g1 => rw [g1] at h1; cases h1
    | @body p m fin g1 g2 g3 g4 =>
      rw [g1] at h1; cases h1
      have hs' : Side (evs ++ [.main x pick]) { g with
          obj := Function.update g.obj .broker v, stack := [], place := .halt } s :=
        by side hs
      refine stay _ hs' ?_
      simp only [Prog.run, Prod.mk.injEq] at g2
      obtain ⟨e1, e2⟩ := g2
      subst e2
      cases g3 with
      | fail q1 =>
        refine .idle (.inl rfl) e1.symm ?_ g4 fun h => absurd rfl h
        rw [q1]; exact .halt
    | wait g1 => rw [g1] at h1; cases h1
    | sending g1 => rw [g1] at h1; cases h1
    | sent g1 => rw [g1] at h1; cases h1
  | @respond g x pick a v m k st h1 =>
    cases hp with
    | idle g1 g2 g3 g4 g5 =>
      rcases g1 with g1 | ⟨⟨m', g1⟩, g6⟩
      · rw [g1] at h1; cases h1
      · rw [g1] at h1; cases h1
    | ok g1 => rw [g1] at h1; cases h1
    | fail g1 => rw [g1] at h1; cases h1
    | @body p m0 fin g1 g2 g3 g4 =>
      rw [g1] at h1; cases h1
      simp only [Prog.run, Prod.mk.injEq] at g2
      obtain ⟨e1, e2⟩ := g2
      have htodo : s.todo = m :: (k v).run.1 := e1.symm
      have hsh := hi.shapes m (by rw [hi.split, htodo]; simp)
      rcases OutShape.key_cases hsh with hk | ⟨hk, -⟩
      · have hsock : (brokerSetup e impl).wiring.sockets.any (fun e => e.1 == m.key) = true :=
          (isSocket_iff (S := brokerSetup e impl)).2 hk
        have heq : St.send m { g with obj := Function.update g.obj .broker v, stack := [.wait .broker k, .loop m0 []] }
            = { g with obj := Function.update g.obj .broker v, stack := [.wait .broker k, .loop m0 []]
                       asked := g.asked ++ [m], sent := g.sent ++ [m] } := by
          unfold St.send; rw [if_pos hsock]
        rw [heq]
        refine move .main { s with
            todo := (k v).run.1, routed := s.routed ++ [m]
            socks := fun x => if x = m.key then (s.socks m.key).sendMessage m else s.socks x } _ ?_ ?_ ?_
        · simp only [Sys.next, Sys.main, htodo, Sys.send, send_socket (order_cases hk)]
          rfl
        · apply Side.congr hs <;> first | rfl | exact hs.inbox | (simp; done) | skip
          intro k'
          simp only [List.filter_append]
          by_cases hk' : m.key = k'
          · subst hk'; simp [hs.sent]
          · simp [hk', Ne.symm hk', hs.sent]
        · refine .wait (fin := fin) rfl ?_ (g3.congr rfl rfl rfl rfl rfl) ?_
          · simp only [hOf, Function.update_self, ← e2]; rfl
          · show g.asked ++ [m] = s.routed ++ [m]; rw [g4]
      · have hsock : ¬ (brokerSetup e impl).wiring.sockets.any (fun e => e.1 == m.key) = true := by
          intro h
          have := (isSocket_iff (S := brokerSetup e impl)).1 h
          rw [hk] at this
          exact absurd this (by show ¬ keyNotifier ∈ brokerWiring.order; decide)
        have hrange : mmRange m.key brokerWiring.handlers = [.notifier] := by rw [hk]; decide
        have heq : St.send m { g with obj := Function.update g.obj .broker v, stack := [.wait .broker k, .loop m0 []] }
            = { g with obj := Function.update g.obj .broker v
                       stack := [.loop m [.notifier], .wait .broker k, .loop m0 []]
                       asked := g.asked ++ [m], processed := g.processed ++ [m] } := by
          unfold St.send; rw [if_neg hsock]
          unfold St.process
          simp only [St.mk.injEq, true_and, and_true, List.cons.injEq, Frame.loop.injEq]
          exact hrange
        rw [heq]
        refine stay _ ?_ ?_
        · side hs
        · refine .sending (fin := fin) (rest := (k v).run.1) rfl hk ?_ htodo (g3.congr rfl rfl rfl rfl rfl) ?_
          · simp only [hOf, Function.update_self, ← e2]; rfl
          · show g.asked ++ [m] = s.routed ++ [m]; rw [g4]
    | wait g1 => rw [g1] at h1; cases h1
    | sending g1 => rw [g1] at h1; cases h1
    | sent g1 => rw [g1] at h1; cases h1
  | @resume g x pick a k st h1 =>
    have hs' : ∀ st, Side (evs ++ [.main x pick]) { g with stack := st } s :=
      fun _ => by side hs
    refine stay _ (hs' _) ?_
    cases hp with
    | idle g1 g2 g3 g4 g5 =>
      rcases g1 with g1 | ⟨⟨m', g1⟩, g6⟩
      · rw [g1] at h1; cases h1
      · rw [g1] at h1; cases h1
    | ok g1 => rw [g1] at h1; cases h1
    | fail g1 => rw [g1] at h1; cases h1
    | body g1 => rw [g1] at h1; cases h1
    | wait g1 g2 g3 g4 =>
      rw [g1] at h1; cases h1
      exact .body rfl g2 (g3.congr rfl rfl rfl rfl rfl) g4
    | sending g1 => rw [g1] at h1; cases h1
    | sent g1 => rw [g1] at h1; cases h1
  | @connect g a h1 h2 =>
    cases a with
    | broker => cases h1
    | notifier =>
      have hth : s.thread = .starting := by
        rcases hs.status with h | h
        · exact h.2
        · rw [h.1] at h2; cases h2
      refine move .connect { s with thread := .running } _ (by simp only [Sys.next]; exact if_pos hth) ?_ ?_
      · exact ⟨hs.inbox, hs.inproc, by simpa using hs.idle, by simpa using hs.pipe, by simp,
          by simpa [nOf] using hs.cur, by simpa using hs.dealer, hs.posted, hs.lost, hs.taken, hs.sent,
          fun k => by rw [arrivals_snoc (by simp)]; exact hs.arrived k⟩
      · exact hp.congr rfl rfl rfl rfl rfl rfl rfl rfl rfl rfl
  | @stop g a x fs rest r h1 h2 h3 h4 =>
    exfalso
    cases a with
    | broker => rw [hs.idle] at h1; cases h1
    | notifier =>
      rw [hs.pipe] at h3
      obtain ⟨ms, hms, hmk⟩ := hi.pipe
      cases ms with
      | nil => rw [h3] at hms; cases hms
      | cons m ms' =>
        rw [h3] at hms
        obtain ⟨rfl, rfl⟩ := List.cons.inj hms
        have htt := threadTurn_frames (m := m) (by rw [(hmk m (by simp)).1]; decide) []
        rw [List.append_nil] at htt
        rw [htt] at h4; cases h4
  | @skip g a x fs rest r h1 h2 h3 h4 =>
    exfalso
    cases a with
    | broker => rw [hs.idle] at h1; cases h1
    | notifier =>
      rw [hs.pipe] at h3
      obtain ⟨ms, hms, hmk⟩ := hi.pipe
      cases ms with
      | nil => rw [h3] at hms; cases hms
      | cons m ms' =>
        rw [h3] at hms
        obtain ⟨rfl, rfl⟩ := List.cons.inj hms
        have htt := threadTurn_frames (m := m) (by rw [(hmk m (by simp)).1]; decide) []
        rw [List.append_nil] at htt
        rw [htt] at h4; cases h4
  | @take g a x fs rest m0 r h1 h2 h3 h4 =>
    cases a with
    | broker => rw [hs.idle] at h1; cases h1
    | notifier =>
      have hth : s.thread = .running := by
        rcases hs.status with h | h
        · rw [h.1] at h1; cases h1
        · exact h.2
      have hno : nOf g = s.notified := by
        rcases hs.cur with h | h
        · exact h.2
        · rw [h2] at h; cases h
      rw [hs.pipe] at h3
      obtain ⟨ms, hms, hmk⟩ := hi.pipe
      cases ms with
      | nil => rw [h3] at hms; cases hms
      | cons m ms' =>
        have hms' := hms
        rw [h3] at hms
        obtain ⟨rfl, rfl⟩ := List.cons.inj hms
        obtain ⟨hk, hn⟩ := hmk m (by simp)
        have htt := threadTurn_frames (m := m) (by rw [hk]; decide) []
        rw [List.append_nil] at htt
        have h4' := h4
        rw [htt] at h4; cases h4
        obtain ⟨n, hn'⟩ := hn.collects
        have hnot : notifierOnRequest e.ncfg x m0
            = .ok (retryLoop (httpPost e.ncfg n) x 4 1 0) := by
          simp only [notifierOnRequest, hn']
        refine move (.take x) { s with
            pipe := List.map (fun m => m.key :: m.identity :: m.data) ms'
            notified := s.notified ++ [(m0, retryLoop (httpPost e.ncfg n) x 4 1 0)] } _ ?_ ?_ ?_
        · simp only [Sys.next, Sys.take, hth, h3, htt, hnot]
        · refine ⟨hs.inbox, hs.inproc, by simpa using hs.idle, by simp, ?_, ?_,
            by simpa using hs.dealer, hs.posted, hs.lost, by simp [hs.taken], hs.sent,
            fun k => by rw [arrivals_snoc (by simp)]; exact hs.arrived k⟩
          · right; exact ⟨by simpa using h1, hth⟩
          · right
            have : ((brokerSetup e impl).obj .notifier).onRequest x m0 (g.obj .notifier)
                = .done (s.notified ++ [(m0, retryLoop (httpPost e.ncfg n) x 4 1 0)]) := by
              show (notifierObj e.ncfg).onRequest x m0 (nOf g) = _
              simp only [notifierObj, hnot, hno]
              rfl
            simp [this]
        · exact hp.congr rfl rfl rfl rfl rfl rfl rfl rfl rfl rfl
  | @tdone g a v h1 =>
    cases a with
    | broker => rw [hs.idle] at h1; cases h1
    | notifier =>
      have hv : v = s.notified := by
        rcases hs.cur with h | h
        · rw [h.1] at h1; cases h1
        · rw [h] at h1; cases h1; rfl
      refine stay _ ?_ (hp.congr rfl rfl rfl rfl ?_ rfl rfl rfl rfl rfl)
      rotate_left
      · exact Function.update_of_ne (a := HandlerRef.broker) (a' := .notifier) (by decide) v g.obj
      have hv' : nOf { g with obj := Function.update g.obj .notifier v } = s.notified :=
        (Function.update_self HandlerRef.notifier _ g.obj).trans hv
      refine ⟨hs.inbox, hs.inproc, by simpa using hs.idle, by simpa using hs.pipe, by simpa using hs.status,
          .inl ⟨by simp, hv'⟩, by simpa using hs.dealer, hs.posted, hs.lost, hs.taken, hs.sent,
          fun k => by rw [arrivals_snoc (by simp)]; exact hs.arrived k⟩
  | @tthrow g a v h1 =>
    exfalso
    cases a with
    | broker => rw [hs.idle] at h1; cases h1
    | notifier =>
      rcases hs.cur with h | h
      · rw [h.1] at h1; cases h1
      · rw [h] at h1; cases h1
  | @reply g a v m k h1 =>
    exfalso
    cases a with
    | broker => rw [hs.idle] at h1; cases h1
    | notifier =>
      rcases hs.cur with h | h
      · rw [h.1] at h1; cases h1
      · rw [h] at h1; cases h1

theorem reentered_step {g g' : BSt e impl} {s : Sys Q} {ev : Ev HandlerRef} (hp : Phase cfg env g s)
    (hq : ∀ a, (g.thr a).dealer.out = []) (hm : Move (brokerSetup e impl) ev g g')
    (h : g.reentered = false) : g'.reentered = false := by
  cases hm with
  | respond h1 => rw [send_reentered]; exact h
  | internal h1 h2 h3 => rw [hq] at h3; cases h3
  | @call g x pick m a as st h1 h2 =>
    have : st.filterMap Frame.owner = [] := by
      cases hp with
      | idle g1 g2 g3 g4 g5 =>
        rcases g1 with g1 | ⟨⟨m', g1⟩, g6⟩
        · rw [g1] at h1; cases h1
        · rw [g1] at h1; cases h1
      | ok g1 => rw [g1] at h1; cases h1; rfl
      | fail g1 => rw [g1] at h1; cases h1; rfl
      | body g1 => rw [g1] at h1; cases h1
      | wait g1 => rw [g1] at h1; cases h1
      | sending g1 => rw [g1] at h1; cases h1; cases h2
      | sent g1 => rw [g1] at h1; cases h1
    simp [this, h]
  | _ => exact h

theorem nested (hf : Faithful cfg env impl) {evs : List (Ev HandlerRef)} {g : BSt e impl}
    (hr : Exec (brokerSetup e impl) evs g) :
    (∃ evs' s, SRun cfg env e evs' s ∧ Side evs g s ∧ Phase cfg env g s) ∧ g.reentered = false := by
  refine Exec.induct (S := brokerSetup e impl) (P := fun evs (g : BSt e impl) => (∃ evs' s, SRun cfg env e evs' s ∧
    Side evs g s ∧ Phase cfg env g s) ∧ g.reentered = false) ?_ ?_ hr
  · refine ⟨⟨[], Sys.init Q, .nil, ?_, ?_⟩, rfl⟩
    · exact ⟨fun _ => rfl, rfl, rfl, rfl, .inl ⟨rfl, rfl⟩, .inl ⟨rfl, rfl⟩, rfl, rfl, rfl, rfl,
        fun _ => rfl, fun _ => rfl⟩
    · exact .idle (.inl rfl) rfl .poll rfl fun _ => ⟨rfl, rfl⟩
  · intro evs g g' ev hr ih hm
    obtain ⟨⟨evs', s, h1, h2, h3⟩, h4⟩ := ih
    obtain ⟨evs'', s', h5, h6, h7⟩ := nested_step hf h1 h1.inv h2 h3 hm
    exact ⟨⟨_, s', h5, h6, h7⟩, reentered_step h3 (quiet h2) hm h4⟩

end Broker.Reactor
