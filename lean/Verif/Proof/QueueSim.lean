import Verif.Proof.Erase
import Verif.Spec.Transcript
import Verif.Spec.Calls

/-!
# Simulation of queue managers

If two queue managers give the same answers to the same calls, then brokers with them cannot be
told apart.
-/

set_option linter.unusedSectionVars false

namespace Broker

/-- Both results are values that are related, or the same exception. -/
inductive SameRes {α β : Type} (R : α → β → Prop) : Except Exn α → Except Exn β → Prop
  | ok {a : α} {b : β} (h : R a b) : SameRes R (.ok a) (.ok b)
  | error (e : Exn) : SameRes R (.error e) (.error e)

variable {Q Q' : Type} [QueueManager Q] [QueueManager Q']

/-- The queue managers give the same answers in related states; the relation may depend on how many
    times the clock was read. -/
structure QSim (env env' : Env) (R : Nat → Q → Q' → Prop) : Prop where
  alloc : env'.alloc = env.alloc
  empty : R 0 QueueManager.empty QueueManager.empty
  addWorker : ∀ {n q q'} (w : Worker) (c : Option Req), R n q q' →
    SameRes (fun a b => b.1 = a.1 ∧ R n a.2 b.2) (QueueManager.addWorker env.srt q w c)
      (QueueManager.addWorker env'.srt q' w c)
  assign : ∀ {n q q'} (w : Worker), R n q q' →
    SameRes (fun a b => b.1 = a.1 ∧ R n a.2 b.2) (QueueManager.assignRequest env.srt q w)
      (QueueManager.assignRequest env'.srt q' w)
  finished : ∀ {n q q'} (w : Worker), R n q q' →
    SameRes (fun a b => b.1 = a.1 ∧ R n a.2 b.2) (QueueManager.workerFinished env.srt q w)
      (QueueManager.workerFinished env'.srt q' w)
  terminated : ∀ {n q q'} (w : Worker), R n q q' →
    SameRes (fun a b => b.1 = a.1 ∧ R n a.2 b.2) (QueueManager.workerTerminated q w)
      (QueueManager.workerTerminated q' w)
  enqueue : ∀ {n q q'} (r : Req), R n q q' →
    SameRes (fun a b => b.1 = a.1 ∧ R (n + 1) a.2 b.2)
      (QueueManager.enqueueRequest q (env.clock n) r)
      (QueueManager.enqueueRequest q' (env'.clock n) r)
  queued : ∀ {n q q'}, R n q q' → QueueManager.queuedCount q' = QueueManager.queuedCount q
  current : ∀ {n q q'} (w : Worker), R n q q' →
    (QueueManager.currentRequest q' w).1 = (QueueManager.currentRequest q w).1 ∧
      R n (QueueManager.currentRequest q w).2 (QueueManager.currentRequest q' w).2
  cancelled : ∀ {n q q'} (w : Worker), R n q q' →
    (QueueManager.workerCancelled q' w).1 = (QueueManager.workerCancelled q w).1 ∧
      R n (QueueManager.workerCancelled q w).2 (QueueManager.workerCancelled q' w).2

/-- The state with another queue manager. -/
def HState.withQ (s : HState Q) (q' : Q') : HState Q' :=
  { workers := s.workers, queue := q', timers := s.timers, live := s.live, fc := s.fc,
    nextRid := s.nextRid, allocs := s.allocs, clockReads := s.clockReads, stats := s.stats,
    frozen := s.frozen, outs := s.outs }

/-- `y` does with the other queue manager what `x` does. -/
def SimM (R : Nat → Q → Q' → Prop) {α : Type} (x : HM Q α) (y : HM Q' α) : Prop :=
  ∀ s q', R s.clockReads s.queue q' → match x s with
    | .ok a t => ∃ p', y (s.withQ q') = .ok a (t.withQ p') ∧ R t.clockReads t.queue p'
    | .error e t => ∃ p', y (s.withQ q') = .error e (t.withQ p')

variable {R : Nat → Q → Q' → Prop} {env env' : Env}

theorem SimM.bind {α β : Type} {x : HM Q α} {y : HM Q' α} {f : α → HM Q β} {g : α → HM Q' β}
    (h : SimM R x y) (hk : ∀ a, SimM R (f a) (g a)) : SimM R (x >>= f) (y >>= g) := by
  intro s q' hs
  have h0 := h s q' hs
  show match EStateM.bind x f s with
    | .ok a t => ∃ p', EStateM.bind y g (s.withQ q') = .ok a (t.withQ p') ∧ R t.clockReads t.queue p'
    | .error e t => ∃ p', EStateM.bind y g (s.withQ q') = .error e (t.withQ p')
  simp only [EStateM.bind]
  cases hx : x s with
  | ok a t =>
    rw [hx] at h0
    obtain ⟨p', h1, h2⟩ := h0
    simp only [h1]
    exact hk a t p' h2
  | error e t =>
    rw [hx] at h0
    obtain ⟨p', h1⟩ := h0
    simp only [h1]
    exact ⟨p', rfl⟩

theorem SimM.getBind {β : Type} {f : HState Q → HM Q β} {g : HState Q' → HM Q' β}
    (h : ∀ s q', R s.clockReads s.queue q' → SimM R (f s) (g (s.withQ q'))) :
    SimM R (MonadState.get >>= f) (MonadState.get >>= g) := fun s q' hs => h s q' hs s q' hs

theorem SimM.pure {α : Type} (a : α) : SimM R (pure a) (pure a) := fun _ q' hs => ⟨q', rfl, hs⟩

theorem SimM.raise {α : Type} (e : Exn) : SimM (α := α) R (Broker.raise e) (Broker.raise e) :=
  fun _ q' _ => ⟨q', rfl⟩

theorem SimM.undef {α : Type} (u : UB) : SimM (α := α) R (Broker.undef u) (Broker.undef u) :=
  fun _ q' _ => ⟨q', rfl⟩

theorem SimM.set {s : HState Q} {q' : Q'} (hs : R s.clockReads s.queue q') :
    SimM (α := PUnit) R (MonadStateOf.set s) (MonadStateOf.set (s.withQ q')) :=
  fun _ _ _ => ⟨q', rfl, hs⟩

theorem SimM.modify {f : HState Q → HState Q} {g : HState Q' → HState Q'}
    (h : ∀ s q', g (s.withQ q') = (f s).withQ q') (hn : ∀ s, (f s).clockReads = s.clockReads)
    (hq : ∀ s, (f s).queue = s.queue) :
    SimM (α := PUnit) R (_root_.modify f) (_root_.modify g) := by
  intro s q' hs
  refine ⟨q', ?_, ?_⟩
  · show EStateM.Result.ok PUnit.unit (g (s.withQ q')) = _
    rw [h]
  · show R (f s).clockReads (f s).queue q'
    rw [hn, hq]; exact hs

theorem SimM.lift {α : Type} (x : Except Exn α) : SimM R (Broker.liftE x) (Broker.liftE x) := by
  cases x with
  | ok a => exact SimM.pure a
  | error e => exact SimM.raise e

theorem SimM.ite {α : Type} {c : Prop} [Decidable c] {x x' : HM Q α} {y y' : HM Q' α}
    (h : SimM R x y) (h' : SimM R x' y') :
    SimM R (if c then x else x') (if c then y else y') := by
  split <;> assumption

theorem SimM.respond {key identity : String} {data : List String} :
    SimM R (Broker.respond key identity data) (Broker.respond key identity data) :=
  SimM.modify (fun _ _ => rfl) (fun _ => rfl) (fun _ => rfl)

/-- A call of the queue manager that does not read the clock. -/
theorem SimM.call {α : Type} {x : Q → Except Exn (α × Q)} {y : Q' → Except Exn (α × Q')}
    (h : ∀ {n q q'}, R n q q' → SameRes (fun a b => b.1 = a.1 ∧ R n a.2 b.2) (x q) (y q')) :
    SimM R (do
        let s ← get
        let (r, q) ← liftE (x s.queue)
        _root_.modify fun s => { s with queue := q }
        return r)
      (do
        let s ← get
        let (r, q) ← liftE (y s.queue)
        _root_.modify fun s => { s with queue := q }
        return r) := by
  intro s q' hs
  have h1 := h hs
  show match (liftE (x s.queue) >>= fun a => (_root_.modify fun s => { s with queue := a.2 }) >>= fun _ =>
      Pure.pure a.1 : HM Q α) s with
    | .ok a t => ∃ p', (liftE (y q') >>= fun a => (_root_.modify fun s => { s with queue := a.2 }) >>=
        fun _ => Pure.pure a.1 : HM Q' α) (s.withQ q') = .ok a (t.withQ p') ∧ R t.clockReads t.queue p'
    | .error e t => ∃ p', (liftE (y q') >>= fun a => (_root_.modify fun s => { s with queue := a.2 }) >>=
        fun _ => Pure.pure a.1 : HM Q' α) (s.withQ q') = .error e (t.withQ p')
  generalize x s.queue = rx at h1
  generalize y q' = ry at h1
  cases h1 with
  | @ok a b h =>
    obtain ⟨a, q1⟩ := a
    obtain ⟨b, q1'⟩ := b
    obtain ⟨e, hR⟩ := h
    cases e
    exact ⟨q1', rfl, hR⟩
  | error e => exact ⟨q', rfl⟩

section
variable (S : QSim env env' R)
include S

theorem sim_qAddWorker (w : Worker) (c : Option Req) :
    SimM R (qAddWorker env w c) (qAddWorker env' w c) := SimM.call fun h => S.addWorker w c h

theorem sim_qAssign (w : Worker) : SimM R (qAssign env w) (qAssign env' w) :=
  SimM.call fun h => S.assign w h

theorem sim_qFinished (w : Worker) : SimM R (qFinished env w) (qFinished env' w) :=
  SimM.call fun h => S.finished w h

theorem sim_qTerminated (w : Worker) : SimM R (qTerminated w) (qTerminated w) :=
  SimM.call fun h => S.terminated w h

theorem sim_qCurrent (w : Worker) : SimM R (qCurrent w) (qCurrent w) := by
  intro s q' hs
  obtain ⟨h1, h2⟩ := S.current w hs
  refine ⟨_, ?_, h2⟩
  show EStateM.Result.ok (QueueManager.currentRequest q' w).1 _ = _
  rw [h1]
  rfl

theorem sim_qCancelled (w : Worker) : SimM R (qCancelled w) (qCancelled w) := by
  intro s q' hs
  obtain ⟨h1, h2⟩ := S.cancelled w hs
  refine ⟨_, ?_, h2⟩
  show EStateM.Result.ok (QueueManager.workerCancelled q' w).1 _ = _
  rw [h1]
  rfl

theorem sim_qEnqueue (r : Req) : SimM R (qEnqueue env r) (qEnqueue env' r) := by
  intro s q' hs
  have h1 := S.enqueue r hs
  have e : ∀ {Q : Type} [QueueManager Q] (env : Env) (s : HState Q), qEnqueue env r s =
      (liftE (QueueManager.enqueueRequest s.queue (env.clock s.clockReads) r) >>= fun a =>
        (modify fun s => { s with queue := a.2, clockReads := s.clockReads + 1 }) >>= fun _ =>
        Pure.pure a.1 : HM Q EnqResult) s := fun _ _ => rfl
  rw [e, e]
  have e1 : (s.withQ q').queue = q' := rfl
  have e2 : (s.withQ q').clockReads = s.clockReads := rfl
  rw [e1, e2]
  generalize QueueManager.enqueueRequest s.queue (env.clock s.clockReads) r = rx at h1
  generalize QueueManager.enqueueRequest q' (env'.clock s.clockReads) r = ry at h1
  cases h1 with
  | @ok a b h =>
    obtain ⟨a, q1⟩ := a
    obtain ⟨b, q1'⟩ := b
    obtain ⟨e, hR⟩ := h
    cases e
    exact ⟨q1', rfl, hR⟩
  | error e => exact ⟨q', rfl⟩

omit S in
theorem sim_sendIf (w : Worker) (r : Option Req) : SimM R (sendIfSome w r) (sendIfSome w r) := by
  cases r with
  | none => exact SimM.pure _
  | some r => exact SimM.respond

omit S in
theorem sim_check (cfg : HConfig) (r : Req) (t : String) :
    SimM R (checkFailureCount cfg r t) (checkFailureCount cfg r t) := by
  unfold checkFailureCount
  refine SimM.getBind fun s q' _ => SimM.ite ?_ (SimM.pure _)
  exact SimM.respond.bind fun _ => SimM.respond.bind fun _ => SimM.pure _

theorem sim_reassign (r : Req) : SimM R (reassignRequest env r) (reassignRequest env' r) := by
  unfold reassignRequest
  refine (sim_qEnqueue S r).bind fun res => SimM.ite ?_ ?_
  · cases res.assignedTo with
    | none => exact SimM.pure _
    | some w => exact SimM.respond.bind fun _ => SimM.pure _
  · exact SimM.respond.bind fun _ => SimM.pure _

/-! ### Client commands -/

theorem sim_submit (i j : String) (hs : Headers) (md : Metadata) (ex : List String) :
    SimM R (submit env i j hs md ex) (submit env' i j hs md ex) := by
  unfold submit
  refine SimM.getBind fun s q' h => ?_
  refine SimM.bind (SimM.set (s := { s with nextRid := s.nextRid + 1, fc := upd s.fc s.nextRid 0 }) h) fun _ => ?_
  refine (sim_qEnqueue S _).bind fun res => SimM.ite ?_ ?_
  · cases res.assignedTo with
    | none => exact SimM.respond
    | some w => exact SimM.bind SimM.respond fun _ => SimM.respond
  · exact SimM.bind SimM.respond fun _ => SimM.respond

theorem sim_eval (i : String) (m : List String) :
    SimM R (processEval env i m) (processEval env' i m) := by
  unfold processEval
  refine SimM.respond.bind fun _ => ?_
  cases m[1]? with
  | none => exact SimM.raise _
  | some j =>
    dsimp only
    cases evalHeaders (m.drop 2) [] [] with
    | error u => exact SimM.undef _
    | ok o =>
      cases o with
      | none => exact SimM.pure _
      | some x =>
        obtain ⟨hs, md, ex⟩ := x
        dsimp only
        refine SimM.getBind fun s q' _ => ?_
        exact SimM.ite SimM.respond (sim_submit S _ _ _ _ _)

theorem sim_client (c i : String) (m : List String) :
    SimM R (clientCommand env c i m) (clientCommand env' c i m) := by
  unfold clientCommand
  refine SimM.ite (sim_eval S _ _) (SimM.ite ?_ (SimM.ite ?_ (SimM.ite ?_ (SimM.pure _))))
  · unfold processStats
    exact SimM.getBind fun s q' _ => SimM.respond
  · exact SimM.bind (SimM.modify (fun _ _ => rfl) (fun _ => rfl) (fun _ => rfl)) fun _ => SimM.respond
  · exact SimM.bind (SimM.modify (fun _ _ => rfl) (fun _ => rfl) (fun _ => rfl)) fun _ => SimM.respond

/-! ### Worker commands -/

theorem sim_register (i g : String) (hs : Headers) (ex : List String) :
    SimM R (registerWorker env i g hs ex) (registerWorker env' i g hs ex) := by
  unfold registerWorker
  refine SimM.getBind fun s q' h => ?_
  cases initExtra ex "" none with
  | mk d j =>
    dsimp only
    have e0 : (s.withQ q').addrs = s.addrs := rfl
    rw [S.alloc, e0]
    refine (SimM.lift _).bind fun w => ?_
    refine SimM.bind (SimM.set (s := { s with
      live := upd s.live (env.alloc s.allocs s.addrs) 0, allocs := s.allocs + 1,
      fc := upd s.fc s.nextRid 0, nextRid := s.nextRid + 1, workers := s.workers ++ [w] }) h)
      fun _ => ?_
    refine (sim_qAddWorker S w _).bind fun o => ?_
    cases o with
    | none => exact SimM.modify (fun _ _ => rfl) (fun _ => rfl) (fun _ => rfl)
    | some r =>
      exact SimM.bind SimM.respond fun _ => SimM.modify (fun _ _ => rfl) (fun _ => rfl) (fun _ => rfl)

theorem sim_init (i : String) (m : List String) :
    SimM R (processInit env i m) (processInit env' i m) := by
  unfold processInit
  match m with
  | [] => exact SimM.pure _
  | [_] => exact SimM.pure _
  | _ :: g :: rest =>
    dsimp only
    refine SimM.getBind fun s q' _ => ?_
    have e : (s.withQ q').workers = s.workers := rfl
    rw [e]
    cases regFind i s.workers with
    | none => exact sim_register S _ _ _ _
    | some w =>
      refine SimM.ite (SimM.pure _) ?_
      exact SimM.bind SimM.respond fun _ => sim_register S _ _ _ _

omit S in
theorem sim_bump (r : Req) : SimM R (bumpCount r) (bumpCount r) :=
  SimM.modify (fun _ _ => rfl) (fun _ => rfl) (fun _ => rfl)

omit S in
theorem sim_countFailed : SimM R countFailed countFailed :=
  SimM.modify (fun _ _ => rfl) (fun _ => rfl) (fun _ => rfl)

omit S in
theorem sim_countEvaluated : SimM R countEvaluated countEvaluated :=
  SimM.modify (fun _ _ => rfl) (fun _ => rfl) (fun _ => rfl)

theorem sim_doneOk (w : Worker) (j : String) : SimM R (doneOk env w j) (doneOk env' w j) := by
  unfold doneOk
  refine SimM.bind SimM.respond fun _ => ?_
  refine SimM.bind (sim_qFinished S w) fun o => ?_
  exact SimM.bind (sim_sendIf w o) fun _ => sim_countEvaluated

theorem sim_doneInternal (cfg : HConfig) (w : Worker) (t : String) :
    SimM R (doneInternal cfg env w t) (doneInternal cfg env' w t) := by
  unfold doneInternal
  refine SimM.bind (sim_qCancelled S w) fun o => ?_
  cases o with
  | none => exact SimM.undef _
  | some r =>
    dsimp only
    refine SimM.bind (sim_bump r) fun _ => SimM.ite ?_ ?_
    · exact SimM.bind SimM.respond fun _ => sim_countFailed
    · refine SimM.bind (sim_check cfg r t) fun b => SimM.ite ?_ ?_
      · exact SimM.bind (sim_reassign S r) fun _ => sim_countFailed
      · refine SimM.bind (sim_qAssign S w) fun o => ?_
        exact SimM.bind (sim_sendIf w o) fun _ => sim_countFailed

theorem sim_doneFailed (w : Worker) (j t : String) :
    SimM R (doneFailed env w j t) (doneFailed env' w j t) := by
  unfold doneFailed
  refine SimM.bind SimM.respond fun _ => ?_
  refine SimM.bind (sim_qCancelled S w) fun o => ?_
  cases o with
  | none => exact SimM.undef _
  | some r =>
    refine SimM.bind (sim_bump r) fun _ => ?_
    refine SimM.bind (sim_qAssign S w) fun o => ?_
    exact SimM.bind (sim_sendIf w o) fun _ => sim_countFailed

theorem sim_current_unit (w : Worker) :
    SimM R (do let _ ← qCurrent w) (do let _ ← qCurrent w) :=
  SimM.bind (sim_qCurrent S w) fun _ => SimM.pure _

theorem sim_done (cfg : HConfig) (i : String) (m : List String) :
    SimM R (processDone cfg env i m) (processDone cfg env' i m) := by
  unfold processDone
  refine SimM.getBind fun s q' _ => ?_
  have e : (s.withQ q').workers = s.workers := rfl
  rw [e]
  cases regFind i s.workers with
  | none => exact SimM.pure _
  | some w =>
    dsimp only
    match m with
    | [] => exact SimM.pure _
    | [_] => exact SimM.pure _
    | [_, _] => exact SimM.pure _
    | _ :: j :: st :: rest =>
      dsimp only
      refine SimM.bind (sim_qCurrent S w) fun o => ?_
      cases o with
      | none => exact SimM.undef _
      | some r =>
        dsimp only
        refine SimM.ite (SimM.pure _) (SimM.ite ?_ (SimM.ite ?_ (SimM.ite ?_ ?_)))
        · exact SimM.bind (sim_doneOk S w j) fun _ => sim_current_unit S w
        · match rest with
          | [] => exact SimM.pure _
          | [t] => exact SimM.bind (sim_doneInternal S cfg w t) fun _ => sim_current_unit S w
          | _ :: _ :: _ => exact SimM.pure _
        · match rest with
          | [] => exact SimM.pure _
          | [t] => exact SimM.bind (sim_doneFailed S w j t) fun _ => sim_current_unit S w
          | _ :: _ :: _ => exact SimM.pure _
        · exact sim_current_unit S w

omit S in
theorem sim_ping (i : String) : SimM R (processPing i) (processPing i) := by
  unfold processPing
  refine SimM.getBind fun s q' _ => ?_
  have e : (s.withQ q').workers = s.workers := rfl
  rw [e]
  cases regFind i s.workers <;> exact SimM.respond

theorem sim_worker (cfg : HConfig) (c i : String) (m : List String) :
    SimM R (workerCommand cfg env c i m) (workerCommand cfg env' c i m) := by
  unfold workerCommand
  exact SimM.ite (sim_init S i m) (SimM.ite (sim_done S cfg i m)
    (SimM.ite (sim_ping i) (SimM.ite SimM.respond (SimM.pure _))))

/-! ### Timer -/

omit S in
theorem sim_tickBody (cfg : HConfig) (t : Int) (dec : Nat → Nat) (zero : Nat → Bool)
    (w : Worker) : SimM R (tickBody cfg t dec zero w) (tickBody cfg t dec zero w) := by
  unfold tickBody
  refine SimM.getBind fun s q' h => SimM.ite ?_ ?_
  · exact SimM.bind (SimM.set (s := { s with
      live := upd s.live w.addr (dec (s.live w.addr)), timers := s.timers.put w 0 }) h)
      fun _ => SimM.pure (zero (dec (s.live w.addr)))
  · exact SimM.bind (SimM.set (s := { s with timers := s.timers.put w (s.timers.getD w 0 + t) }) h)
      fun _ => SimM.pure _

omit S in
theorem sim_ticks (cfg : HConfig) (t : Int) (ws : List Worker) :
    SimM R (tickWorkers cfg t ws) (tickWorkers cfg t ws) := by
  induction ws with
  | nil => exact SimM.pure _
  | cons w ws ih =>
    unfold tickWorkers
    refine SimM.bind (sim_tickBody cfg t szDec (fun l => decide (l ≤ 0)) w) fun b => ?_
    exact SimM.bind ih fun r => SimM.pure _

theorem sim_settle (cfg : HConfig) (rs : List Req) :
    SimM R (settleRequests cfg env rs) (settleRequests cfg env' rs) := by
  induction rs with
  | nil => exact SimM.pure _
  | cons r rs ih =>
    unfold settleRequests
    refine SimM.ite ?_ ?_
    · exact SimM.bind SimM.respond fun _ => SimM.bind SimM.respond fun _ => ih
    · refine SimM.bind (sim_check cfg r timeoutMsg) fun b => SimM.ite ?_ ih
      refine SimM.bind (sim_reassign S r) fun b => SimM.ite ?_ ?_
      · exact SimM.bind SimM.respond fun _ => ih
      · exact SimM.bind ih fun _ => SimM.pure _

omit S in
theorem sim_rejectAll (d : String) (rs : List Req) : SimM R (rejectAll d rs) (rejectAll d rs) := by
  induction rs with
  | nil => exact SimM.pure _
  | cons r rs ih =>
    unfold rejectAll
    exact SimM.bind SimM.respond fun _ => ih

theorem sim_expire (cfg : HConfig) (w : Worker) :
    SimM R (expireWorker cfg env w) (expireWorker cfg env' w) := by
  unfold expireWorker
  refine SimM.bind (SimM.modify (fun _ _ => rfl) (fun _ => rfl) (fun _ => rfl)) fun _ => ?_
  refine SimM.bind (sim_qCurrent S w) fun o => ?_
  have tail : SimM R
      (do
        let requests ← qTerminated w
        let unassigned ← settleRequests cfg env requests
        rejectAll ("Worker " ++ w.getDescription ++ " dieded") unassigned)
      (do
        let requests ← qTerminated w
        let unassigned ← settleRequests cfg env' requests
        rejectAll ("Worker " ++ w.getDescription ++ " dieded") unassigned) := by
    refine SimM.bind (sim_qTerminated S w) fun rs => ?_
    exact SimM.bind (sim_settle S cfg rs) fun _ => sim_rejectAll _ _
  cases o with
  | none => exact tail
  | some r => exact SimM.bind (sim_bump r) fun _ => tail

theorem sim_expires (cfg : HConfig) (ws : List Worker) :
    SimM R (expireWorkers cfg env ws) (expireWorkers cfg env' ws) := by
  induction ws with
  | nil => exact SimM.pure _
  | cons w ws ih => exact SimM.bind (sim_expire S cfg w) fun _ => ih

theorem sim_countIdle (ws : List Worker) : SimM R (countIdle ws) (countIdle ws) := by
  induction ws with
  | nil => exact SimM.pure _
  | cons w ws ih =>
    unfold countIdle
    exact SimM.bind (sim_qCurrent S w) fun o => SimM.bind ih fun n => SimM.pure _

theorem sim_gauges : SimM R updateGauges updateGauges := by
  unfold updateGauges
  refine SimM.getBind fun s q' h => ?_
  have e1 : (s.withQ q').queue = q' := rfl
  have e2 : (s.withQ q').workers = s.workers := rfl
  simp only [e1, e2, S.queued h]
  exact SimM.bind (sim_countIdle S _) fun n =>
    SimM.modify (fun _ _ => rfl) (fun _ => rfl) (fun _ => rfl)

theorem sim_timer (cfg : HConfig) (d : List String) :
    SimM R (processTimer cfg env d) (processTimer cfg env' d) := by
  unfold processTimer
  match d with
  | [] => exact SimM.undef _
  | f :: _ =>
    dsimp only
    refine SimM.bind (SimM.lift _) fun t => ?_
    refine SimM.getBind fun s q' _ => ?_
    refine SimM.bind (sim_ticks cfg t _) fun ws => ?_
    exact SimM.bind (sim_expires S cfg ws) fun _ => sim_gauges S

/-! ### Events -/

omit S in
theorem sim_touch (cfg : HConfig) (i : String) : SimM R (touchWorker cfg i) (touchWorker cfg i) := by
  unfold touchWorker
  refine SimM.getBind fun s q' h => ?_
  have e : (s.withQ q').workers = s.workers := rfl
  rw [e]
  cases regFind i s.workers with
  | none => exact SimM.pure _
  | some w => exact SimM.set (s := { s with
      live := upd s.live w.addr cfg.maxLiveness, timers := s.timers.put w 0 }) h

theorem sim_request (cfg : HConfig) (m : Msg) :
    SimM R (onRequest cfg env m) (onRequest cfg env' m) := by
  obtain ⟨k, i, d⟩ := m
  unfold onRequest
  refine SimM.ite ?_ (SimM.ite ?_ (SimM.ite (sim_timer S cfg _) (SimM.pure _)))
  · refine SimM.bind (sim_touch cfg _) fun _ => ?_
    cases d with
    | nil => exact SimM.raise _
    | cons c t => exact sim_worker S cfg c i _
  · cases d with
    | nil => exact SimM.raise _
    | cons c t => exact sim_client S c i _

/-! ### Histories -/

theorem transcript_sim (cfg : HConfig) (ms : List Msg) {s : HState Q} {q' : Q'}
    (h : R s.clockReads s.queue q') :
    transcript cfg env' (s.withQ q') ms = transcript cfg env s ms := by
  induction ms generalizing s q' with
  | nil => rfl
  | cons m ms ih =>
    have h1 := sim_request S cfg m { s with outs := [] } q' h
    have e : step cfg env' m (s.withQ q') =
      onRequest cfg env' m (({ s with outs := [] } : HState Q).withQ q') := rfl
    have e' : step cfg env m s = onRequest cfg env m { s with outs := [] } := rfl
    unfold transcript
    rw [e, e']
    cases hx : onRequest cfg env m { s with outs := [] } with
    | ok a t =>
      rw [hx] at h1
      obtain ⟨p', h2, h3⟩ := h1
      rw [h2]
      simp only [ih h3]
      rfl
    | error e t =>
      rw [hx] at h1
      obtain ⟨p', h2⟩ := h1
      rw [h2]
      rfl

/-- Brokers with queue managers that give the same answers cannot be told apart. -/
theorem observed_sim (cfg : HConfig) (ms : List Msg) :
    observed Q' cfg env' ms = observed Q cfg env ms :=
  transcript_sim S cfg ms (s := HState.init Q) S.empty

/-! ### Calls -/

omit S [QueueManager Q] [QueueManager Q'] in
theorem SameRes.map {α β γ δ : Type} {R : α → β → Prop} {T : γ → δ → Prop} {f : α → γ} {g : β → δ}
    {x : Except Exn α} {y : Except Exn β} (h : SameRes R x y) (hs : ∀ a b, R a b → T (f a) (g b)) :
    SameRes T (x.map f) (y.map g) := by
  cases h with
  | ok h => exact .ok (hs _ _ h)
  | error e => exact .error e

theorem sim_answer {n : Nat} {q : Q} {q' : Q'} (h : R n q q') (c : Spec.Call) :
    SameRes (fun a b => b.1 = a.1 ∧ R (n + c.readings) a.2 b.2) (Spec.answer env n q c)
      (Spec.answer env' n q' c) := by
  cases c with
  | add w c => exact (S.addWorker w c h).map fun a b h => ⟨congrArg _ h.1, h.2⟩
  | assign w => exact (S.assign w h).map fun a b h => ⟨congrArg _ h.1, h.2⟩
  | finished w => exact (S.finished w h).map fun a b h => ⟨congrArg _ h.1, h.2⟩
  | terminated w => exact (S.terminated w h).map fun a b h => ⟨congrArg _ h.1, h.2⟩
  | enqueue r => exact (S.enqueue r h).map fun a b h => ⟨congrArg _ h.1, h.2⟩
  | count => exact .ok ⟨congrArg _ (S.queued h), h⟩
  | current w => exact .ok ⟨congrArg _ (S.current w h).1, (S.current w h).2⟩
  | cancelled w => exact .ok ⟨congrArg _ (S.cancelled w h).1, (S.cancelled w h).2⟩

theorem answers_sim (cs : List Spec.Call) {n : Nat} {q : Q} {q' : Q'} (h : R n q q') :
    Spec.answers env n q cs = Spec.answers env' n q' cs := by
  induction cs generalizing n q q' with
  | nil => rfl
  | cons c cs ih =>
    have h1 := sim_answer S h c
    unfold Spec.answers
    generalize Spec.answer env n q c = x at h1
    generalize Spec.answer env' n q' c = y at h1
    cases h1 with
    | @ok a b h =>
      obtain ⟨a, q1⟩ := a
      obtain ⟨b, q2⟩ := b
      obtain ⟨e, h⟩ := h
      cases e
      simp only [ih h]
    | error e => rfl

end

end Broker
