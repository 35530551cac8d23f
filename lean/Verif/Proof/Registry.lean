import Verif.Proof.Trace

/-!
# The registry part of the handler

Workers, timers, liveness counters and the frozen flag evolve by themselves: the next values depend
only on the message and the present values, not on the queue manager.
-/

set_option linter.unusedSectionVars false
set_option linter.unusedSimpArgs false

namespace Broker

/-- Registry part of the state. -/
structure RState where
  workers : List Worker
  timers : WMap Int
  live : Nat → Nat
  allocs : Nat
  frozen : Bool

variable {Q : Type}

/-- Projection to the registry part. -/
def HState.rs (s : HState Q) : RState := ⟨s.workers, s.timers, s.live, s.allocs, s.frozen⟩

/-- Initial registry. -/
def RState.init : RState := ⟨[], [], fun _ => 0, 0, false⟩

/-- Addresses in use. -/
def RState.addrs (p : RState) : List Nat := p.workers.map (·.addr) ++ p.timers.map (·.1.addr)

/-- Hearing from a worker. -/
def RState.heard (cfg : HConfig) (i : String) (p : RState) : RState :=
  match regFind i p.workers with
  | none => p
  | some w => { p with live := upd p.live w.addr cfg.maxLiveness, timers := p.timers.put w 0 }

/-- Registration of a worker. -/
def RState.register (env : Env) (i hwgroup : String) (hs : Headers) (extra : List String)
    (p : RState) : RState :=
  match Worker.create (env.alloc p.allocs p.addrs) i hwgroup hs (initExtra extra "" none).1 with
  | .error _ => p
  | .ok w => { p with
      live := upd p.live (env.alloc p.allocs p.addrs) 0, allocs := p.allocs + 1,
      workers := p.workers ++ [w], timers := p.timers.emplace w 0 }

/-- An `init` message. -/
def RState.init' (env : Env) (i : String) (data : List String) (p : RState) : RState :=
  match data with
  | _ :: hwgroup :: rest =>
    match regFind i p.workers with
    | some w =>
      if w.headersEqual (initHeaders rest []).1 then p
      else p.register env i hwgroup (initHeaders rest []).1 (initHeaders rest []).2
    | none => p.register env i hwgroup (initHeaders rest []).1 (initHeaders rest []).2
  | _ => p

/-- One round of the loop over workers. -/
def RState.tick1 (cfg : HConfig) (time : Int) (w : Worker) (p : RState) : Bool × RState :=
  if p.timers.getD w 0 + time > cfg.pingInterval then
    (decide (szDec (p.live w.addr) ≤ 0),
      { p with live := upd p.live w.addr (szDec (p.live w.addr)), timers := p.timers.put w 0 })
  else (false, { p with timers := p.timers.put w (p.timers.getD w 0 + time) })

/-- The loop over workers. -/
def RState.tick (cfg : HConfig) (time : Int) : List Worker → RState → List Worker × RState
  | [], p => ([], p)
  | w :: ws, p =>
    let x := p.tick1 cfg time w
    let y := RState.tick cfg time ws x.2
    (if x.1 then w :: y.1 else y.1, y.2)

/-- A timer message. -/
def RState.timer (cfg : HConfig) (data : List String) (p : RState) : RState :=
  match data with
  | [] => p
  | f :: _ =>
    match stoll f with
    | .error _ => p
    | .ok time =>
      let x := p.tick cfg time p.workers
      { x.2 with workers := x.1.foldl (fun ws w => regRemove w ws) x.2.workers }

/-- The registry after a message. -/
def RState.step (cfg : HConfig) (env : Env) (m : Msg) (p : RState) : RState :=
  if m.key = keyWorkers then
    if m.data.head? = some "init" then (p.heard cfg m.identity).init' env m.identity m.data
    else p.heard cfg m.identity
  else if m.key = keyClients then
    if m.data.head? = some "freeze" then { p with frozen := true }
    else if m.data.head? = some "unfreeze" then { p with frozen := false }
    else p
  else if m.key = keyTimer then p.timer cfg m.data
  else p

/-! ## Computations that keep the registry -/

/-- The computation does not change the registry. -/
def Keeps {α : Type} (x : HM Q α) : Prop :=
  ∀ s, wp x s (fun _ s' => s'.rs = s.rs) (fun _ _ => True)

theorem keeps_pure {α : Type} (a : α) : Keeps (pure a : HM Q α) := fun _ => rfl

theorem keeps_bind {α β : Type} {x : HM Q α} {f : α → HM Q β} (hx : Keeps x)
    (hf : ∀ a, Keeps (f a)) : Keeps (x >>= f) := by
  intro s
  rw [wp_bind]
  refine wp_mono (hx s) ?_ (fun _ _ _ => trivial)
  intro a s1 h1
  refine wp_mono (hf a s1) ?_ (fun _ _ _ => trivial)
  intro b s2 h2
  exact h2.trans h1

theorem keeps_get : Keeps (get : HM Q (HState Q)) := fun _ => rfl

theorem keeps_modify {f : HState Q → HState Q} (h : ∀ s, (f s).rs = s.rs) :
    Keeps (modify f : HM Q PUnit) := fun s => h s

theorem keeps_liftE {α : Type} (x : Except Exn α) : Keeps (liftE x : HM Q α) := by
  intro s
  rw [wp_liftE]
  cases x <;> trivial

theorem keeps_undef {α : Type} (u : UB) : Keeps (undef u : HM Q α) := fun _ => trivial

theorem keeps_raise {α : Type} (e : Exn) : Keeps (raise e : HM Q α) := fun _ => trivial

theorem keeps_respond (k i : String) (d : List String) : Keeps (respond k i d : HM Q Unit) :=
  fun _ => rfl

/-- `get` followed by something that only needs the registry part for itself. -/
theorem keeps_get_bind {β : Type} {f : HState Q → HM Q β} (hf : ∀ a, Keeps (f a)) :
    Keeps (get >>= f) := keeps_bind keeps_get hf

theorem keeps_ite {α : Type} {c : Prop} [Decidable c] {x y : HM Q α} (hx : Keeps x)
    (hy : Keeps y) : Keeps (if c then x else y) := by
  split <;> assumption

variable [QueueManager Q]

theorem keeps_qAssign (env : Env) (w : Worker) : Keeps (qAssign env w : HM Q _) := by
  refine keeps_get_bind fun s => keeps_bind (keeps_liftE _) fun p => ?_
  exact keeps_bind (keeps_modify fun _ => rfl) fun _ => keeps_pure _

theorem keeps_qFinished (env : Env) (w : Worker) : Keeps (qFinished env w : HM Q _) := by
  refine keeps_get_bind fun s => keeps_bind (keeps_liftE _) fun p => ?_
  exact keeps_bind (keeps_modify fun _ => rfl) fun _ => keeps_pure _

theorem keeps_qAddWorker (env : Env) (w : Worker) (c : Option Req) :
    Keeps (qAddWorker env w c : HM Q _) := by
  refine keeps_get_bind fun s => keeps_bind (keeps_liftE _) fun p => ?_
  exact keeps_bind (keeps_modify fun _ => rfl) fun _ => keeps_pure _

theorem keeps_qTerminated (w : Worker) : Keeps (qTerminated w : HM Q _) := by
  refine keeps_get_bind fun s => keeps_bind (keeps_liftE _) fun p => ?_
  exact keeps_bind (keeps_modify fun _ => rfl) fun _ => keeps_pure _

theorem keeps_qEnqueue (env : Env) (r : Req) : Keeps (qEnqueue env r : HM Q _) := by
  refine keeps_get_bind fun s => keeps_bind (keeps_liftE _) fun p => ?_
  exact keeps_bind (keeps_modify fun _ => rfl) fun _ => keeps_pure _

theorem keeps_qCurrent (w : Worker) : Keeps (qCurrent w : HM Q _) := by
  refine keeps_get_bind fun s => ?_
  exact keeps_bind (keeps_modify fun _ => rfl) fun _ => keeps_pure _

theorem keeps_qCancelled (w : Worker) : Keeps (qCancelled w : HM Q _) := by
  refine keeps_get_bind fun s => ?_
  exact keeps_bind (keeps_modify fun _ => rfl) fun _ => keeps_pure _

theorem keeps_reassign (env : Env) (r : Req) : Keeps (reassignRequest env r : HM Q _) := by
  refine keeps_bind (keeps_qEnqueue env r) fun res => ?_
  refine keeps_ite ?_ ?_
  · cases res.assignedTo with
    | none => exact keeps_pure _
    | some w => exact keeps_bind (keeps_respond _ _ _) fun _ => keeps_pure _
  · exact keeps_bind (keeps_respond _ _ _) fun _ => keeps_pure _

theorem keeps_checkFailureCount (cfg : HConfig) (r : Req) (t : String) :
    Keeps (checkFailureCount cfg r t : HM Q _) := by
  refine keeps_get_bind fun s => keeps_ite ?_ (keeps_pure _)
  exact keeps_bind (keeps_respond _ _ _) fun _ => keeps_bind (keeps_respond _ _ _) fun _ =>
    keeps_pure _

theorem keeps_sendIfSome (w : Worker) (o : Option Req) : Keeps (sendIfSome w o : HM Q _) := by
  cases o with
  | none => exact keeps_pure _
  | some r => exact keeps_respond _ _ _

theorem keeps_submit (env : Env) (i j : String) (hs : Headers) (md : Metadata) (x : List String) :
    Keeps (submit env i j hs md x : HM Q _) := by
  intro s
  simp only [submit, wp_bind, wp_get, wp_set]
  refine wp_mono (keeps_qEnqueue env _ _) ?_ (fun _ _ _ => trivial)
  intro res s1 h1
  split
  · cases res.assignedTo with
    | none => exact h1
    | some w => exact h1
  · simp only [wp_bind, wp_respond, notifyMonitor]
    exact h1

theorem keeps_processEval (env : Env) (i : String) (msg : List String) :
    Keeps (processEval env i msg : HM Q _) := by
  refine keeps_bind (keeps_respond _ _ _) fun _ => ?_
  split
  · exact keeps_raise _
  · split
    · exact keeps_undef _
    · exact keeps_pure _
    · exact keeps_get_bind fun s => keeps_ite (keeps_respond _ _ _) (keeps_submit _ _ _ _ _ _)

theorem keeps_doneOk (env : Env) (w : Worker) (j : String) : Keeps (doneOk env w j : HM Q _) :=
  keeps_bind (keeps_respond _ _ _) fun _ => keeps_bind (keeps_qFinished env w) fun o =>
    keeps_bind (keeps_sendIfSome w o) fun _ => keeps_modify fun _ => rfl

theorem keeps_doneInternal (cfg : HConfig) (env : Env) (w : Worker) (t : String) :
    Keeps (doneInternal cfg env w t : HM Q _) := by
  refine keeps_bind (keeps_qCancelled w) fun o => ?_
  cases o with
  | none => exact keeps_undef _
  | some r =>
    refine keeps_bind (keeps_modify fun _ => rfl) fun _ => ?_
    have hc : Keeps (countFailed : HM Q Unit) := keeps_modify fun _ => rfl
    dsimp only
    split
    · exact keeps_bind (keeps_respond _ _ _) fun _ => hc
    · refine keeps_bind (keeps_checkFailureCount cfg r t) fun b => ?_
      cases b with
      | true => exact keeps_bind (keeps_reassign env r) fun _ => hc
      | false =>
        exact keeps_bind (keeps_qAssign env w) fun o => keeps_bind (keeps_sendIfSome w o) fun _ => hc

theorem keeps_doneFailed (env : Env) (w : Worker) (j t : String) :
    Keeps (doneFailed env w j t : HM Q _) := by
  refine keeps_bind (keeps_respond _ _ _) fun _ => keeps_bind (keeps_qCancelled w) fun o => ?_
  cases o with
  | none => exact keeps_undef _
  | some r =>
    exact keeps_bind (keeps_modify fun _ => rfl) fun _ => keeps_bind (keeps_qAssign env w) fun o =>
      keeps_bind (keeps_sendIfSome w o) fun _ => keeps_modify fun _ => rfl

theorem keeps_processDone (cfg : HConfig) (env : Env) (i : String) (msg : List String) :
    Keeps (processDone cfg env i msg : HM Q _) := by
  refine keeps_get_bind fun s => ?_
  split
  · exact keeps_pure _
  · rename_i w _
    split
    · rename_i j st rest
      refine keeps_bind (keeps_qCurrent w) fun o => ?_
      cases o with
      | none => exact keeps_undef _
      | some r =>
        have hq : Keeps (do let _ ← qCurrent w : HM Q Unit) :=
          keeps_bind (keeps_qCurrent w) fun _ => keeps_pure _
        refine keeps_ite (keeps_pure _) (keeps_ite ?_ (keeps_ite ?_ (keeps_ite ?_ hq)))
        · exact keeps_bind (keeps_doneOk env w _) fun _ => hq
        · split
          · exact keeps_bind (keeps_doneInternal cfg env w _) fun _ => hq
          · exact keeps_pure _
        · split
          · exact keeps_bind (keeps_doneFailed env w _ _) fun _ => hq
          · exact keeps_pure _
    · exact keeps_pure _

theorem keeps_processPing (i : String) : Keeps (processPing i : HM Q _) := by
  refine keeps_get_bind fun s => ?_
  split <;> exact keeps_respond _ _ _

theorem keeps_settle (cfg : HConfig) (env : Env) : ∀ rs : List Req,
    Keeps (settleRequests cfg env rs : HM Q _) := by
  intro rs
  induction rs with
  | nil => exact keeps_pure _
  | cons r rs ih =>
    rw [settleRequests]
    refine keeps_ite ?_ ?_
    · exact keeps_bind (keeps_respond _ _ _) fun _ => keeps_bind (keeps_respond _ _ _) fun _ => ih
    · refine keeps_bind (keeps_checkFailureCount cfg r _) fun b => keeps_ite ?_ ih
      refine keeps_bind (keeps_reassign env r) fun b => keeps_ite ?_ ?_
      · exact keeps_bind (keeps_respond _ _ _) fun _ => ih
      · exact keeps_bind ih fun _ => keeps_pure _

theorem keeps_rejectAll (d : String) : ∀ rs : List Req, Keeps (rejectAll d rs : HM Q _) := by
  intro rs
  induction rs with
  | nil => exact keeps_pure _
  | cons r rs ih => exact keeps_bind (keeps_respond _ _ _) fun _ => ih

theorem keeps_countIdle : ∀ ws : List Worker, Keeps (countIdle ws : HM Q _) := by
  intro ws
  induction ws with
  | nil => exact keeps_pure _
  | cons w ws ih => exact keeps_bind (keeps_qCurrent w) fun _ => keeps_bind ih fun _ => keeps_pure _

theorem keeps_updateGauges : Keeps (updateGauges : HM Q _) :=
  keeps_get_bind fun s => keeps_bind (keeps_countIdle s.workers) fun _ => keeps_modify fun _ => rfl

/-! ## Computations that change it -/

theorem rs_expireWorker (cfg : HConfig) (env : Env) (w : Worker) (s : HState Q) :
    wp (expireWorker cfg env w) s (fun _ s' => s'.rs = { s.rs with workers := regRemove w s.workers })
      (fun _ _ => True) := by
  simp only [expireWorker, wp_bind, wp_modify]
  refine wp_mono (keeps_qCurrent w _) ?_ (fun _ _ _ => trivial)
  intro o s1 h1
  have hk : Keeps (do
      let requests ← qTerminated w
      let unassigned ← settleRequests cfg env requests
      rejectAll ("Worker " ++ w.getDescription ++ " dieded") unassigned : HM Q Unit) :=
    keeps_bind (keeps_qTerminated w) fun rs => keeps_bind (keeps_settle cfg env rs) fun un =>
      keeps_rejectAll _ un
  have hk2 : Keeps (match o with
    | some r => do
      bumpCount r
      let requests ← qTerminated w
      let unassigned ← settleRequests cfg env requests
      rejectAll ("Worker " ++ w.getDescription ++ " dieded") unassigned
    | none => do
      let requests ← qTerminated w
      let unassigned ← settleRequests cfg env requests
      rejectAll ("Worker " ++ w.getDescription ++ " dieded") unassigned : HM Q Unit) := by
    cases o with
    | none => exact hk
    | some r => exact keeps_bind (keeps_modify fun _ => rfl) fun _ => hk
  refine wp_mono (hk2 s1) ?_ (fun _ _ _ => trivial)
  intro _ s2 h2
  rw [h2, h1]; rfl

theorem rs_expireWorkers (cfg : HConfig) (env : Env) : ∀ (ws : List Worker) (s : HState Q),
    wp (expireWorkers cfg env ws) s
      (fun _ s' => s'.rs = { s.rs with workers := ws.foldl (fun l w => regRemove w l) s.workers })
      (fun _ _ => True) := by
  intro ws
  induction ws with
  | nil => intro s; rfl
  | cons w ws ih =>
    intro s
    simp only [expireWorkers, wp_bind]
    refine wp_mono (rs_expireWorker cfg env w s) ?_ (fun _ _ _ => trivial)
    intro _ s1 h1
    refine wp_mono (ih s1) ?_ (fun _ _ _ => trivial)
    intro _ s2 h2
    have : s1.workers = regRemove w s.workers := congrArg RState.workers h1
    rw [h2, h1, this]; rfl

theorem rs_tickWorker (cfg : HConfig) (time : Int) (w : Worker) (s : HState Q) :
    wp (tickWorker cfg time w) s
      (fun b s' => b = (s.rs.tick1 cfg time w).1 ∧ s'.rs = (s.rs.tick1 cfg time w).2)
      (fun _ _ => True) := by
  simp only [tickWorker, wp_bind, wp_get, RState.tick1]
  by_cases h : s.timers.getD w 0 + time > cfg.pingInterval
  · have h' : s.rs.timers.getD w 0 + time > cfg.pingInterval := h
    rw [if_pos h, if_pos h', wp_bind, wp_set, wp_pure]
    simp only [HState.rs]
    exact ⟨decide_eq_decide.2 Iff.rfl, trivial⟩
  · have h' : ¬ s.rs.timers.getD w 0 + time > cfg.pingInterval := h
    rw [if_neg h, if_neg h', wp_bind, wp_set]; exact And.intro rfl rfl

theorem rs_tickWorkers (cfg : HConfig) (time : Int) : ∀ (ws : List Worker) (s : HState Q),
    wp (tickWorkers cfg time ws) s
      (fun l s' => l = (s.rs.tick cfg time ws).1 ∧ s'.rs = (s.rs.tick cfg time ws).2)
      (fun _ _ => True) := by
  intro ws
  induction ws with
  | nil => intro s; exact ⟨rfl, rfl⟩
  | cons w ws ih =>
    intro s
    simp only [tickWorkers, wp_bind]
    refine wp_mono (rs_tickWorker cfg time w s) ?_ (fun _ _ _ => trivial)
    rintro b s1 ⟨h1, h2⟩
    refine wp_mono (ih s1) ?_ (fun _ _ _ => trivial)
    rintro l s2 ⟨h3, h4⟩
    simp only [wp_pure, RState.tick]
    rw [h1, h3, h4, h2]
    exact ⟨rfl, rfl⟩

theorem rs_processTimer (cfg : HConfig) (env : Env) (data : List String) (s : HState Q) :
    wp (processTimer cfg env data) s (fun _ s' => s'.rs = s.rs.timer cfg data)
      (fun _ _ => True) := by
  cases data with
  | nil => trivial
  | cons f rest =>
    simp only [processTimer, wp_bind, wp_liftE, RState.timer]
    cases stoll f with
    | error e => trivial
    | ok time =>
      simp only [wp_get]
      refine wp_mono (rs_tickWorkers cfg time s.workers s) ?_ (fun _ _ _ => trivial)
      rintro l s1 ⟨h1, h2⟩
      refine wp_mono (rs_expireWorkers cfg env l s1) ?_ (fun _ _ _ => trivial)
      intro _ s2 h3
      refine wp_mono (keeps_updateGauges s2) ?_ (fun _ _ _ => trivial)
      intro _ s3 h4
      have hw : s1.workers = (s.rs.tick cfg time s.workers).2.workers := congrArg RState.workers h2
      rw [h4, h3, h2, hw, h1]; rfl

theorem rs_registerWorker (env : Env) (i g : String) (hs : Headers) (extra : List String)
    (s : HState Q) :
    wp (registerWorker env i g hs extra) s (fun _ s' => s'.rs = s.rs.register env i g hs extra)
      (fun _ _ => True) := by
  simp only [registerWorker, wp_bind, wp_get, wp_liftE, RState.register]
  have ha : s.rs.addrs = s.addrs := rfl
  have hb : s.rs.allocs = s.allocs := rfl
  rw [ha, hb]
  cases Worker.create (env.alloc s.allocs s.addrs) i g hs (initExtra extra "" none).1 with
  | error e => trivial
  | ok w =>
    simp only [wp_set]
    refine wp_mono (keeps_qAddWorker env w _ _) ?_ (fun _ _ _ => trivial)
    intro o s1 h1
    have h3 : ∀ s2 : HState Q, s2.rs = s1.rs →
        (⟨s2.workers, s2.timers.emplace w 0, s2.live, s2.allocs, s2.frozen⟩ : RState) =
          { s.rs with
            live := upd s.rs.live (env.alloc s.allocs s.addrs) 0, allocs := s.allocs + 1,
            workers := s.rs.workers ++ [w], timers := s.rs.timers.emplace w 0 } := by
      intro s2 h2
      have h3 := h2.trans h1
      have ht : s2.timers = s.timers := congrArg RState.timers h3
      have e1 : s2.workers = s.workers ++ [w] := congrArg RState.workers h3
      have e2 : s2.live = upd s.live (env.alloc s.allocs s.addrs) 0 := congrArg RState.live h3
      have e3 : s2.allocs = s.allocs + 1 := congrArg RState.allocs h3
      have e4 : s2.frozen = s.frozen := congrArg RState.frozen h3
      rw [ht, e1, e2, e3, e4]; rfl
    cases o with
    | none => exact h3 s1 rfl
    | some r => exact h3 _ rfl

theorem rs_processInit (env : Env) (i : String) (data : List String) (s : HState Q) :
    wp (processInit env i data) s (fun _ s' => s'.rs = s.rs.init' env i data)
      (fun _ _ => True) := by
  match data with
  | [] => rfl
  | [_] => rfl
  | _ :: g :: rest =>
    simp only [processInit, wp_bind, wp_get, RState.init']
    have hf : regFind i s.rs.workers = regFind i s.workers := rfl
    rw [hf]
    cases regFind i s.workers with
    | none => exact rs_registerWorker env i g _ _ s
    | some w =>
      simp only
      by_cases he : w.headersEqual (initHeaders rest []).1 = true
      · rw [if_pos he, if_pos he]; rfl
      · rw [if_neg he, if_neg he, wp_bind]
        simp only [notifyError, wp_respond]
        exact rs_registerWorker env i g _ _ _

theorem rs_heard (cfg : HConfig) (i : String) (s : HState Q) :
    (s.heard cfg i).rs = s.rs.heard cfg i := by
  unfold HState.heard RState.heard
  have hf : regFind i s.rs.workers = regFind i s.workers := rfl
  rw [hf]
  cases regFind i s.workers <;> rfl

theorem rs_onRequest (cfg : HConfig) (env : Env) (m : Msg) (s : HState Q) :
    wp (onRequest cfg env m) s (fun _ s' => s'.rs = s.rs.step cfg env m) (fun _ _ => True) := by
  obtain ⟨key, i, data⟩ := m
  simp only [onRequest, RState.step]
  by_cases hk : key = keyWorkers
  · rw [if_pos hk, if_pos hk, wp_bind]
    unfold wp
    rw [touchWorker_eq]
    simp only
    cases data with
    | nil => trivial
    | cons c rest =>
      change wp (workerCommand cfg env c i (c :: rest)) (s.heard cfg i) _ _
      simp only [workerCommand, List.head?_cons, Option.some.injEq]
      rw [← rs_heard]
      by_cases h1 : c = "init"
      · rw [if_pos h1, if_pos h1]; exact rs_processInit env i _ _
      · rw [if_neg h1, if_neg h1]
        have : Keeps (if c = "done" then processDone cfg env i (c :: rest)
          else if c = "ping" then processPing i
          else if c = "progress" then processProgress (c :: rest)
          else (pure () : HM Q Unit)) :=
          keeps_ite (keeps_processDone _ _ _ _) (keeps_ite (keeps_processPing _)
            (keeps_ite (keeps_respond _ _ _) (keeps_pure _)))
        exact this _
  · rw [if_neg hk, if_neg hk]
    by_cases hc : key = keyClients
    · rw [if_pos hc, if_pos hc]
      cases data with
      | nil => trivial
      | cons c rest =>
        simp only [clientCommand, List.head?_cons, Option.some.injEq]
        by_cases h1 : c = "eval"
        · subst h1
          rw [if_pos rfl, if_neg (by decide), if_neg (by decide)]
          exact keeps_processEval _ _ _ _
        · rw [if_neg h1]
          by_cases h2 : c = "get-runtime-stats"
          · subst h2
            rw [if_pos rfl, if_neg (by decide), if_neg (by decide)]
            rfl
          · rw [if_neg h2]
            by_cases h3 : c = "freeze"
            · rw [if_pos h3, if_pos h3]; rfl
            · rw [if_neg h3, if_neg h3]
              by_cases h4 : c = "unfreeze"
              · rw [if_pos h4, if_pos h4]; rfl
              · rw [if_neg h4, if_neg h4]; rfl
    · rw [if_neg hc, if_neg hc]
      by_cases ht : key = keyTimer
      · rw [if_pos ht, if_pos ht]; exact rs_processTimer cfg env data s
      · rw [if_neg ht, if_neg ht]; rfl

/-- The registry evolves by itself. -/
theorem step_rs {cfg : HConfig} {env : Env} {m : Msg} {s s' : HState Q}
    (h : step cfg env m s = .ok () s') : s'.rs = s.rs.step cfg env m :=
  wp_ok (rs_onRequest cfg env m { s with outs := [] }) h

/-- The registry after a list of messages. -/
def rsAfter (cfg : HConfig) (env : Env) (ms : List Msg) : RState :=
  ms.foldl (fun p m => p.step cfg env m) RState.init

theorem Run.rs {cfg : HConfig} {env : Env} {h : List (Tr Q)} {s : HState Q}
    (hr : Run cfg env h s) : s.rs = rsAfter cfg env (h.map (·.msg)) := by
  induction hr with
  | nil => rfl
  | snoc hr hs ih =>
    rw [step_rs hs, ih]
    simp [rsAfter, List.foldl_append]

end Broker
