import Verif.Proof.Heard
import Verif.Proof.RefineTimer

/-!
# Ticks

A tick that takes no worker beyond the interval can be added to the next one.
-/

set_option linter.unusedSectionVars false
set_option linter.unusedSimpArgs false

namespace Broker

open QueueManager

variable {Q : Type} {α β : Type}

/-! ## Timers -/

namespace WMap

/-- The timers at these addresses are advanced. -/
def late (a : Int) (as : List Nat) (m : WMap Int) : WMap Int :=
  m.map fun e => if e.1.addr ∈ as then (e.1, e.2 + a) else e

theorem late_cons (a : Int) (as : List Nat) (x : Worker) (u : Int) (m : WMap Int) :
    late a as ((x, u) :: m) = (x, if x.addr ∈ as then u + a else u) :: m.late a as := by
  simp only [late, List.map_cons]
  congr 1
  split <;> rfl

theorem late_nil (a : Int) (m : WMap Int) : m.late a [] = m := by
  simp [late]

theorem late_congr {a : Int} {as bs : List Nat} {m : WMap Int}
    (h : ∀ e ∈ m, (e.1.addr ∈ as ↔ e.1.addr ∈ bs)) : m.late a as = m.late a bs := by
  refine List.map_congr_left fun e he => ?_
  simp only [h e he]

theorem late_keys (a : Int) (as : List Nat) (m : WMap Int) : (m.late a as).map (·.1) = m.map (·.1) := by
  simp only [late, List.map_map]
  refine List.map_congr_left fun e _ => ?_
  simp only [Function.comp]
  split <;> rfl

theorem sorted_of_keys {m m' : WMap Int} (h : m'.map (·.1) = m.map (·.1)) (hs : m.Sorted) :
    m'.Sorted := by
  have h1 : (m.map (·.1)).Pairwise fun x y => x.addr < y.addr := by
    rw [List.pairwise_map]; exact hs
  rw [← h, List.pairwise_map] at h1
  exact h1

theorem Sorted.not_lt {m : WMap Int} {x w : Worker} {u : Int} (hs : Sorted ((x, u) :: m))
    (hw : w ∈ ((x, u) :: m).map (·.1)) (hx : x.addr ≠ w.addr) : ¬ w.addr < x.addr ∧ w ∈ m.map (·.1) := by
  have hs' := List.pairwise_cons.1 hs
  have hm : w ∈ m.map (·.1) := by
    rcases List.mem_cons.1 hw with h | h
    · subst h; exact absurd rfl hx
    · exact h
  refine ⟨?_, hm⟩
  obtain ⟨e, he, rfl⟩ := List.mem_map.1 hm
  have := hs'.1 e he
  simp only at this
  omega

/-- Later entries of a sorted map have other addresses. -/
theorem Sorted.others {m : WMap Int} {x : Worker} {u : Int} (hs : Sorted ((x, u) :: m)) :
    ∀ e ∈ m, e.1.addr ≠ x.addr := by
  intro e he
  have := (List.pairwise_cons.1 hs).1 e he
  simp only at this
  omega

theorem getD_late {a : Int} {as : List Nat} {w : Worker} (ha : w.addr ∈ as) {m : WMap Int}
    (hw : w ∈ m.map (·.1)) (hs : m.Sorted) : (m.late a as).getD w 0 = m.getD w 0 + a := by
  induction m with
  | nil => cases hw
  | cons e t ih =>
    obtain ⟨x, u⟩ := e
    rw [late_cons]
    simp only [getD, find]
    by_cases hx : x.addr = w.addr
    · simp [hx, ha]
    · obtain ⟨h1, h2⟩ := hs.not_lt hw hx
      simp only [if_neg hx]
      exact ih h2 (List.pairwise_cons.1 hs).2

/-- Setting a timer that is advanced. -/
theorem put_late {a : Int} {as : List Nat} {w : Worker} (ha : w.addr ∉ as) (v : Int) {m : WMap Int}
    (hw : w ∈ m.map (·.1)) (hs : m.Sorted) :
    (m.late a (w.addr :: as)).put w v = (m.put w v).late a as := by
  induction m with
  | nil => cases hw
  | cons e t ih =>
    obtain ⟨x, u⟩ := e
    rw [late_cons]
    unfold put
    by_cases hx : x.addr = w.addr
    · rw [if_pos hx, if_pos hx, late_cons, if_neg (by rw [hx]; exact ha)]
      congr 1
      refine late_congr fun e he => ?_
      have := hs.others e he
      rw [hx] at this
      simp [this]
    · obtain ⟨h1, h2⟩ := hs.not_lt hw hx
      rw [if_neg hx, if_neg h1, if_neg hx, if_neg h1, late_cons, ih h2 (List.pairwise_cons.1 hs).2]
      congr 2
      simp [hx]

/-- Advancing one timer is setting it. -/
theorem put_getD {a : Int} {w : Worker} {m : WMap Int} (hw : w ∈ m.map (·.1)) (hs : m.Sorted) :
    m.put w (m.getD w 0 + a) = m.late a [w.addr] := by
  induction m with
  | nil => cases hw
  | cons e t ih =>
    obtain ⟨x, u⟩ := e
    rw [late_cons]
    simp only [getD, find, put]
    by_cases hx : x.addr = w.addr
    · simp only [if_pos hx]
      rw [if_pos (by simp [hx])]
      congr 1
      have h : late a [w.addr] t = late a [] t := late_congr fun e he => by
        have := hs.others e he
        rw [hx] at this
        simp [this]
      rw [h, late_nil]
    · obtain ⟨h1, h2⟩ := hs.not_lt hw hx
      simp only [if_neg hx, if_neg h1]
      rw [if_neg (by simp [hx])]
      congr 1
      exact ih h2 (List.pairwise_cons.1 hs).2

theorem late_add (a b : Int) (as : List Nat) (m : WMap Int) :
    (m.late a as).late b as = m.late (a + b) as := by
  simp only [late, List.map_map]
  refine List.map_congr_left fun e _ => ?_
  simp only [Function.comp]
  by_cases h : e.1.addr ∈ as
  · simp [h, Int.add_assoc]
  · simp [h]

theorem late_zero (as : List Nat) (m : WMap Int) : m.late 0 as = m := by
  have : ∀ e ∈ m, (if e.1.addr ∈ as then (e.1, e.2 + 0) else e) = e := by
    intro e _; split <;> simp
  unfold late
  rw [List.map_congr_left this, List.map_id']

theorem late_late {a : Int} {as bs : List Nat} (h : ∀ x ∈ as, x ∉ bs) (m : WMap Int) :
    (m.late a as).late a bs = m.late a (as ++ bs) := by
  simp only [late, List.map_map]
  refine List.map_congr_left fun e _ => ?_
  simp only [Function.comp, List.mem_append]
  by_cases h1 : e.1.addr ∈ as
  · simp [h1, h _ h1]
  · simp [h1]

end WMap

/-- Timers and statistics are overwritten. -/
def HState.setClock (b : WMap Int × Stats) (s : HState Q) : HState Q :=
  { s with timers := b.1, stats := b.2 }

variable [QueueManager Q]

/-! ## The loop over workers -/

/-- A tick that takes no worker beyond the interval advances the timers. -/
theorem tickWorkers_quiet {cfg : HConfig} {a : Int} : ∀ (ws : List Worker) {s : HState Q},
    (ws.map (·.addr)).Nodup → s.timers.Sorted → (∀ w ∈ ws, w ∈ s.timers.map (·.1)) →
    (∀ w ∈ ws, s.timers.getD w 0 + a ≤ cfg.pingInterval) →
    tickWorkers cfg a ws s = .ok [] { s with timers := s.timers.late a (ws.map (·.addr)) }
  | [], s, _, _, _, _ => by rw [List.map_nil, WMap.late_nil]; rfl
  | w :: ws, s, hn, hs, hm, hq => by
    have hn' := List.nodup_cons.1 hn
    have h1 : tickWorker cfg a w s = .ok false { s with timers := s.timers.late a [w.addr] } := by
      simp only [tickWorker, Bind.bind, EStateM.bind, MonadState.get, getThe, MonadStateOf.get,
        EStateM.get]
      rw [if_neg (by have := hq w (List.mem_cons_self ..); omega)]
      rw [WMap.put_getD (hm w (List.mem_cons_self ..)) hs]
      rfl
    have h2 := tickWorkers_quiet (cfg := cfg) (a := a) ws
      (s := { s with timers := s.timers.late a [w.addr] }) hn'.2
      (WMap.sorted_of_keys (WMap.late_keys _ _ _) hs)
      (fun x hx => by rw [WMap.late_keys]; exact hm x (List.mem_cons_of_mem _ hx))
      (fun x hx => by
        have hne : x.addr ≠ w.addr := fun h =>
          hn'.1 (List.mem_map.2 ⟨x, hx, h⟩)
        have := hq x (List.mem_cons_of_mem _ hx)
        rw [← WMap.put_getD (hm w (List.mem_cons_self ..)) hs, WMap.getD, WMap.find_put_of_ne hne]
        exact this)
    simp only [tickWorkers, Bind.bind, EStateM.bind, h1, h2, Pure.pure, EStateM.pure]
    rw [WMap.late_late (by simpa using hn'.1)]
    rfl

/-- The tick after it does what both together do. -/
theorem tickWorkers_sum {cfg : HConfig} {a b : Int} (o : Stats) : ∀ (ws : List Worker) {s : HState Q},
    (ws.map (·.addr)).Nodup → s.timers.Sorted → (∀ w ∈ ws, w ∈ s.timers.map (·.1)) →
    tickWorkers cfg b ws { s with timers := s.timers.late a (ws.map (·.addr)), stats := o } =
      mapRes (fun t => { t with stats := o }) (tickWorkers cfg (a + b) ws s)
  | [], s, _, _, _ => by rw [List.map_nil, WMap.late_nil]; rfl
  | w :: ws, s, hn, hs, hm => by
    have hn' := List.nodup_cons.1 hn
    have hw := hm w (List.mem_cons_self ..)
    have hk : ∀ v, (s.timers.put w v).map (·.1) = s.timers.map (·.1) := fun v =>
      WMap.put_keys hs hw v
    have h1 : ∀ v l, tickWorkers cfg b ws { s with
          live := l, timers := (s.timers.late a ((w :: ws).map (·.addr))).put w v, stats := o } =
        mapRes (fun t => { t with stats := o })
          (tickWorkers cfg (a + b) ws { s with live := l, timers := s.timers.put w v }) := by
      intro v l
      have := tickWorkers_sum (cfg := cfg) (a := a) (b := b) o ws
        (s := { s with live := l, timers := s.timers.put w v }) hn'.2
        (WMap.sorted_of_keys (hk v) hs)
        (fun x hx => by rw [hk]; exact hm x (List.mem_cons_of_mem _ hx))
      rw [← this, List.map_cons, WMap.put_late hn'.1 v hw hs]
    have h2 : (s.timers.late a ((w :: ws).map (·.addr))).getD w 0 = s.timers.getD w 0 + a :=
      WMap.getD_late (by simp) hw hs
    simp only [tickWorkers, tickWorker, Bind.bind, EStateM.bind, MonadState.get, getThe,
      MonadStateOf.get, EStateM.get, h2]
    by_cases hc : s.timers.getD w 0 + (a + b) > cfg.pingInterval
    · have hc' : s.timers.getD w 0 + a + b > cfg.pingInterval := by omega
      simp only [if_pos hc, if_pos hc', MonadStateOf.set, EStateM.set, Pure.pure, EStateM.pure,
        EStateM.bind, h1]
      generalize tickWorkers cfg (a + b) ws _ = r
      cases r <;> rfl
    · have hc' : ¬ s.timers.getD w 0 + a + b > cfg.pingInterval := by omega
      simp only [if_neg hc, if_neg hc', MonadStateOf.set, EStateM.set, Pure.pure, EStateM.pure,
        EStateM.bind]
      rw [show s.timers.getD w 0 + a + b = s.timers.getD w 0 + (a + b) by omega, h1]
      generalize tickWorkers cfg (a + b) ws _ = r
      cases r <;> rfl

/-! ## Everything else -/

/-- The computation commutes with overwriting timers and statistics. -/
def OComm (b : WMap Int × Stats) (f : HM Q α) : Prop := ∀ s, f (s.setClock b) = mapRes (·.setClock b) (f s)

theorem OComm.pure (b : WMap Int × Stats) (a : α) : OComm (Q := Q) b (pure a) := fun _ => rfl

theorem OComm.bind {b : WMap Int × Stats} {f : HM Q α} {k : α → HM Q β} (hf : OComm b f)
    (hk : ∀ a, OComm b (k a)) : OComm b (f >>= k) := by
  intro s
  simp only [Bind.bind, EStateM.bind]
  rw [hf s]
  cases f s with
  | ok a s' => exact hk a s'
  | error e s' => rfl

theorem OComm.get {b : WMap Int × Stats} {k : HState Q → HM Q β} (hk : ∀ s, OComm b (k s))
    (hi : ∀ s, k (s.setClock b) = k s) : OComm b (get >>= k) := by
  intro s
  change k (s.setClock b) (s.setClock b) = mapRes _ (k s s)
  rw [hi]; exact hk s s

theorem OComm.modify {b : WMap Int × Stats} {g : HState Q → HState Q}
    (h : ∀ s, g (s.setClock b) = (g s).setClock b) : OComm b (modify g : HM Q PUnit) := by
  intro s
  change EStateM.Result.ok _ (g (s.setClock b)) = .ok _ ((g s).setClock b)
  rw [h]

theorem OComm.throw (b : WMap Int × Stats) (e : Err) : OComm (Q := Q) b (throw e : HM Q α) := fun _ => rfl

theorem OComm.liftE (b : WMap Int × Stats) (x : Except Exn α) : OComm (Q := Q) b (liftE x) := by
  cases x <;> exact fun _ => rfl

theorem OComm.respond (b : WMap Int × Stats) (k i : String) (d : List String) :
    OComm (Q := Q) b (respond k i d) := OComm.modify (fun _ => rfl)

theorem OComm.ite {b : WMap Int × Stats} {c : Prop} [Decidable c] {f g : HM Q α} (hf : OComm b f)
    (hg : OComm b g) : OComm b (if c then f else g) := by
  split <;> assumption

theorem OComm.checkFailureCount (b : WMap Int × Stats) (cfg : HConfig) (r : Req) (t : String) :
    OComm (Q := Q) b (checkFailureCount cfg r t) := by
  unfold Broker.checkFailureCount
  refine OComm.get (fun s => ?_) (fun s => rfl)
  refine OComm.ite ?_ (OComm.pure _ _)
  refine OComm.bind (OComm.respond _ _ _ _) (fun _ => ?_)
  exact OComm.bind (OComm.respond _ _ _ _) (fun _ => OComm.pure _ _)


theorem OComm.qAddWorker (b : WMap Int × Stats) (env : Env) (w : Worker) (cur : Option Req) :
    OComm (Q := Q) b (qAddWorker env w cur) := by
  unfold Broker.qAddWorker
  refine OComm.get (fun s => ?_) (fun s => rfl)
  refine OComm.bind (OComm.liftE _ _) (fun x => ?_)
  exact OComm.bind (OComm.modify (fun _ => rfl)) (fun _ => OComm.pure _ _)

theorem OComm.qAssign (b : WMap Int × Stats) (env : Env) (w : Worker) :
    OComm (Q := Q) b (qAssign env w) := by
  unfold Broker.qAssign
  refine OComm.get (fun s => ?_) (fun s => rfl)
  refine OComm.bind (OComm.liftE _ _) (fun x => ?_)
  exact OComm.bind (OComm.modify (fun _ => rfl)) (fun _ => OComm.pure _ _)

theorem OComm.qFinished (b : WMap Int × Stats) (env : Env) (w : Worker) :
    OComm (Q := Q) b (qFinished env w) := by
  unfold Broker.qFinished
  refine OComm.get (fun s => ?_) (fun s => rfl)
  refine OComm.bind (OComm.liftE _ _) (fun x => ?_)
  exact OComm.bind (OComm.modify (fun _ => rfl)) (fun _ => OComm.pure _ _)

theorem OComm.qTerminated (b : WMap Int × Stats) (w : Worker) :
    OComm (Q := Q) b (qTerminated w) := by
  unfold Broker.qTerminated
  refine OComm.get (fun s => ?_) (fun s => rfl)
  refine OComm.bind (OComm.liftE _ _) (fun x => ?_)
  exact OComm.bind (OComm.modify (fun _ => rfl)) (fun _ => OComm.pure _ _)

theorem OComm.qEnqueue (b : WMap Int × Stats) (env : Env) (r : Req) :
    OComm (Q := Q) b (qEnqueue env r) := by
  unfold Broker.qEnqueue
  refine OComm.get (fun s => ?_) (fun s => rfl)
  refine OComm.bind (OComm.liftE _ _) (fun x => ?_)
  exact OComm.bind (OComm.modify (fun _ => rfl)) (fun _ => OComm.pure _ _)

theorem OComm.qCurrent (b : WMap Int × Stats) (w : Worker) : OComm (Q := Q) b (qCurrent w) := by
  unfold Broker.qCurrent
  refine OComm.get (fun s => ?_) (fun s => rfl)
  exact OComm.bind (OComm.modify (fun _ => rfl)) (fun _ => OComm.pure _ _)

theorem OComm.qCancelled (b : WMap Int × Stats) (w : Worker) : OComm (Q := Q) b (qCancelled w) := by
  unfold Broker.qCancelled
  refine OComm.get (fun s => ?_) (fun s => rfl)
  exact OComm.bind (OComm.modify (fun _ => rfl)) (fun _ => OComm.pure _ _)

theorem OComm.reassign (b : WMap Int × Stats) (env : Env) (r : Req) :
    OComm (Q := Q) b (reassignRequest env r) := by
  unfold reassignRequest
  refine OComm.bind (OComm.qEnqueue _ _ _) (fun x => ?_)
  refine OComm.ite ?_ ?_
  · cases x.assignedTo with
    | none => exact OComm.pure _ _
    | some w => exact OComm.bind (OComm.respond _ _ _ _) (fun _ => OComm.pure _ _)
  · exact OComm.bind (OComm.respond _ _ _ _) (fun _ => OComm.pure _ _)

theorem OComm.bump (b : WMap Int × Stats) (r : Req) : OComm (Q := Q) b (bumpCount r) :=
  OComm.modify (fun _ => rfl)

theorem OComm.settle (b : WMap Int × Stats) (cfg : HConfig) (env : Env) (rs : List Req) :
    OComm (Q := Q) b (settleRequests cfg env rs) := by
  induction rs with
  | nil => exact OComm.pure _ _
  | cons r rs ih =>
    unfold settleRequests
    refine OComm.ite ?_ ?_
    · refine OComm.bind (OComm.respond _ _ _ _) (fun _ => ?_)
      exact OComm.bind (OComm.respond _ _ _ _) (fun _ => ih)
    · refine OComm.bind (OComm.checkFailureCount _ _ _ _) (fun c => ?_)
      refine OComm.ite ?_ ih
      refine OComm.bind (OComm.reassign _ _ _) (fun c => ?_)
      refine OComm.ite (OComm.bind (OComm.respond _ _ _ _) (fun _ => ih)) ?_
      exact OComm.bind ih (fun _ => OComm.pure _ _)

theorem OComm.rejectAll (b : WMap Int × Stats) (d : String) (rs : List Req) :
    OComm (Q := Q) b (rejectAll d rs) := by
  induction rs with
  | nil => exact OComm.pure _ _
  | cons r rs ih => exact OComm.bind (OComm.respond _ _ _ _) (fun _ => ih)

theorem OComm.expire (b : WMap Int × Stats) (cfg : HConfig) (env : Env) (w : Worker) :
    OComm (Q := Q) b (expireWorker cfg env w) := by
  unfold expireWorker
  refine OComm.bind (OComm.modify (fun _ => rfl)) (fun _ => ?_)
  refine OComm.bind (OComm.qCurrent _ _) (fun o => ?_)
  have h : OComm (Q := Q) b (do
      let requests ← Broker.qTerminated w
      let unassigned ← settleRequests cfg env requests
      Broker.rejectAll ("Worker " ++ w.getDescription ++ " dieded") unassigned) := by
    refine OComm.bind (OComm.qTerminated _ _) (fun _ => ?_)
    exact OComm.bind (OComm.settle _ _ _ _) (fun _ => OComm.rejectAll _ _ _)
  cases o with
  | none => exact h
  | some r => exact OComm.bind (OComm.bump _ _) (fun _ => h)

theorem OComm.expireAll (b : WMap Int × Stats) (cfg : HConfig) (env : Env) (ws : List Worker) :
    OComm (Q := Q) b (expireWorkers cfg env ws) := by
  induction ws with
  | nil => exact OComm.pure _ _
  | cons w ws ih => exact OComm.bind (OComm.expire _ _ _ _) (fun _ => ih)

theorem OComm.submit (b : WMap Int × Stats) (env : Env) (i j : String) (hs : Headers) (md : Metadata)
    (x : List String) : OComm (Q := Q) b (submit env i j hs md x) := by
  intro s
  have h : OComm (Q := Q) b (do
      let res ← Broker.qEnqueue env (Req.full s.nextRid hs md j x)
      if res.enqueued then do
        match res.assignedTo with
        | some w => sendRequest w (Req.full s.nextRid hs md j x)
        | none => Pure.pure ()
        Broker.respond keyClients i ["accept"]
      else do
        Broker.respond keyClients i ["reject", rejectMessage hs]
        notifyMonitor j "FAILED") := by
    refine OComm.bind (OComm.qEnqueue _ _ _) (fun r => ?_)
    refine OComm.ite ?_ ?_
    · cases r.assignedTo with
      | none => exact OComm.respond _ _ _ _
      | some w => exact OComm.bind (OComm.respond _ _ _ _) (fun _ => OComm.respond _ _ _ _)
    · exact OComm.bind (OComm.respond _ _ _ _) (fun _ => OComm.respond _ _ _ _)
  exact h { s with nextRid := s.nextRid + 1, fc := upd s.fc s.nextRid 0 }

theorem OComm.client (b : WMap Int × Stats) (env : Env) {c : String} (i : String) (d : List String)
    (hc : c ≠ "get-runtime-stats") : OComm (Q := Q) b (clientCommand env c i d) := by
  unfold clientCommand
  rw [if_neg hc]
  refine OComm.ite ?_ (OComm.ite ?_ (OComm.ite ?_ (OComm.pure _ _)))
  · unfold processEval
    refine OComm.bind (OComm.respond _ _ _ _) (fun _ => ?_)
    cases d[1]? with
    | none => exact OComm.throw _ _
    | some j =>
      simp only
      split
      · exact OComm.throw _ _
      · exact OComm.pure _ _
      · refine OComm.get (fun s => ?_) (fun s => rfl)
        exact OComm.ite (OComm.respond _ _ _ _) (OComm.submit _ _ _ _ _ _ _)
  · exact OComm.bind (OComm.modify (fun _ => rfl)) (fun _ => OComm.respond _ _ _ _)
  · exact OComm.bind (OComm.modify (fun _ => rfl)) (fun _ => OComm.respond _ _ _ _)


theorem OComm.countIdle (b : WMap Int × Stats) (ws : List Worker) : OComm (Q := Q) b (countIdle ws) := by
  induction ws with
  | nil => exact OComm.pure _ _
  | cons w ws ih =>
    refine OComm.bind (OComm.qCurrent _ _) (fun _ => ?_)
    exact OComm.bind ih (fun _ => OComm.pure _ _)

/-! ## Timer messages -/

theorem tickWorkers_stats {cfg : HConfig} {a : Int} : ∀ (ws : List Worker) {s t : HState Q}
    {xs : List Worker}, tickWorkers cfg a ws s = .ok xs t → t.stats = s.stats
  | [], s, t, xs, h => by cases h; rfl
  | w :: ws, s, t, xs, h => by
    have h1 : ∃ b s1, tickWorker cfg a w s = .ok b s1 ∧ s1.stats = s.stats := by
      simp only [tickWorker, Bind.bind, EStateM.bind, MonadState.get, getThe, MonadStateOf.get,
        EStateM.get]
      split
      · exact ⟨_, _, rfl, rfl⟩
      · exact ⟨_, _, rfl, rfl⟩
    obtain ⟨b, s1, h1, h2⟩ := h1
    simp only [tickWorkers, Bind.bind, EStateM.bind, h1] at h
    cases h3 : tickWorkers cfg a ws s1 with
    | error e s2 => rw [h3] at h; cases h
    | ok ys s2 =>
      rw [h3] at h
      cases h
      rw [tickWorkers_stats ws h3, h2]

theorem OComm.keeps {f : HM Q α} (hf : ∀ b, OComm b f) {s t : HState Q} {x : α}
    (h : f s = .ok x t) : t.timers = s.timers ∧ t.stats = s.stats := by
  have h1 := hf (s.timers, s.stats) s
  rw [show s.setClock (s.timers, s.stats) = s from rfl, h] at h1
  have h2 : t = t.setClock (s.timers, s.stats) := by simpa [mapRes] using h1
  rw [h2]
  exact ⟨rfl, rfl⟩

theorem countIdle_ok : ∀ (ws : List Worker) (s : HState Q) (e : Err) (t : HState Q),
    countIdle ws s ≠ .error e t
  | [], _, _, _, h => by cases h
  | w :: ws, s, e, t, h => by
    obtain ⟨x, s1, h1⟩ : ∃ x s1, qCurrent w s = .ok x s1 := ⟨_, _, rfl⟩
    simp only [countIdle, Bind.bind, EStateM.bind, h1] at h
    cases h2 : countIdle ws s1 with
    | error e' t' => exact countIdle_ok ws s1 e' t' h2
    | ok n t' => rw [h2] at h; cases h

/-- The statistics after a tick do not depend on the gauges before. -/
theorem gauges_sum {o : Stats} {s : HState Q} (h1 : o.evaluated = s.stats.evaluated)
    (h2 : o.failed = s.stats.failed) :
    updateGauges ({ s with stats := o } : HState Q) = updateGauges s := by
  unfold updateGauges
  simp only [Bind.bind, EStateM.bind, MonadState.get, getThe, MonadStateOf.get, EStateM.get]
  have hc := OComm.countIdle (Q := Q) (s.timers, o) s.workers s
  rw [show s.setClock (s.timers, o) = { s with stats := o } from rfl] at hc
  rw [hc]
  have hk := fun (t : HState Q) x h =>
    OComm.keeps (fun b => OComm.countIdle (Q := Q) b s.workers) (s := s) (t := t) (x := x) h
  cases hx : countIdle s.workers s with
  | error e t => exact absurd hx (countIdle_ok _ _ _ _)
  | ok n t =>
    obtain ⟨h3, h4⟩ := hk t n hx
    show EStateM.Result.ok () _ = EStateM.Result.ok () _
    congr 1
    show ({ t with timers := s.timers, stats := _ } : HState Q) = { t with stats := _ }
    rw [← h3]
    simp only [HState.setClock, h1, h2, ← h4]

theorem timer_sum {cfg : HConfig} {env : Env} {a b : Int} {f g : String} {fs gs : List String}
    (hf : stoll f = .ok b) (hg : stoll g = .ok (a + b)) {o : Stats} {s : HState Q}
    (hn : (s.workers.map (·.addr)).Nodup) (hs : s.timers.Sorted)
    (hm : ∀ w ∈ s.workers, w ∈ s.timers.map (·.1))
    (h1 : o.evaluated = s.stats.evaluated) (h2 : o.failed = s.stats.failed) :
    (∃ t, processTimer cfg env (f :: fs)
          { s with timers := s.timers.late a (s.workers.map (·.addr)), stats := o } = .ok () t ∧
        processTimer cfg env (g :: gs) s = .ok () t) ∨
      ∃ e t t', processTimer cfg env (f :: fs)
          { s with timers := s.timers.late a (s.workers.map (·.addr)), stats := o } = .error e t' ∧
        processTimer cfg env (g :: gs) s = .error e t ∧ t'.outs = t.outs := by
  unfold processTimer
  simp only [hf, hg, liftE, Bind.bind, EStateM.bind, Pure.pure, EStateM.pure, MonadState.get, getThe,
    MonadStateOf.get, EStateM.get]
  rw [tickWorkers_sum (cfg := cfg) (a := a) (b := b) o s.workers hn hs hm]
  cases ht : tickWorkers cfg (a + b) s.workers s with
  | error e t => exact .inr ⟨e, t, _, rfl, rfl, rfl⟩
  | ok xs t =>
    simp only [mapRes]
    have he := OComm.expireAll (Q := Q) (t.timers, o) cfg env xs t
    rw [show t.setClock (t.timers, o) = { t with stats := o } from rfl] at he
    rw [he]
    cases hx : expireWorkers cfg env xs t with
    | error e u => exact .inr ⟨e, u, _, rfl, rfl, rfl⟩
    | ok x u =>
      have hk := OComm.keeps (fun b => OComm.expireAll (Q := Q) b cfg env xs) hx
      have hst := tickWorkers_stats _ ht
      simp only [mapRes]
      have e : u.setClock (t.timers, o) = { u with stats := o } := by
        rw [← hk.1]; rfl
      rw [e, gauges_sum (by rw [h1, hk.2, hst]) (by rw [h2, hk.2, hst])]
      cases hu : updateGauges u with
      | ok x v => exact .inl ⟨v, rfl, rfl⟩
      | error e v => exact .inr ⟨e, v, v, rfl, rfl, rfl⟩

end Broker
