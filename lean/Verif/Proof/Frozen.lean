import Verif.Proof.Total

/-!
# The frozen flag does not influence anything but `eval`, `freeze`, `unfreeze` and the statistics

Every other computation of the handler commutes with overwriting the flag.
-/

set_option linter.unusedSectionVars false
set_option linter.unusedSimpArgs false

namespace Broker

open QueueManager

variable {Q : Type} {α β : Type}

/-- Overwrite the flag. -/
def HState.setFrozen (b : Bool) (s : HState Q) : HState Q := { s with frozen := b }

/-- Apply a function to the state of a result. -/
def mapRes (g : HState Q → HState Q) : EStateM.Result Err (HState Q) α →
    EStateM.Result Err (HState Q) α
  | .ok a s => .ok a (g s)
  | .error e s => .error e (g s)

/-- The computation commutes with overwriting the flag. -/
def FComm (b : Bool) (f : HM Q α) : Prop := ∀ s, f (s.setFrozen b) = mapRes (·.setFrozen b) (f s)

theorem FComm.pure (b : Bool) (a : α) : FComm (Q := Q) b (pure a) := fun _ => rfl

theorem FComm.bind {b : Bool} {f : HM Q α} {k : α → HM Q β} (hf : FComm b f)
    (hk : ∀ a, FComm b (k a)) : FComm b (f >>= k) := by
  intro s
  simp only [Bind.bind, EStateM.bind]
  rw [hf s]
  cases f s with
  | ok a s' => exact hk a s'
  | error e s' => rfl

theorem FComm.get {b : Bool} {k : HState Q → HM Q β} (hk : ∀ s, FComm b (k s))
    (hi : ∀ s, k (s.setFrozen b) = k s) : FComm b (get >>= k) := by
  intro s
  change k (s.setFrozen b) (s.setFrozen b) = mapRes _ (k s s)
  rw [hi]; exact hk s s

theorem FComm.modify {b : Bool} {g : HState Q → HState Q}
    (h : ∀ s, g (s.setFrozen b) = (g s).setFrozen b) : FComm b (modify g : HM Q PUnit) := by
  intro s
  change EStateM.Result.ok _ (g (s.setFrozen b)) = .ok _ ((g s).setFrozen b)
  rw [h]

theorem FComm.throw (b : Bool) (e : Err) : FComm (Q := Q) b (throw e : HM Q α) := fun _ => rfl

theorem FComm.liftE (b : Bool) (x : Except Exn α) : FComm (Q := Q) b (liftE x) := by
  cases x <;> exact fun _ => rfl

theorem FComm.respond (b : Bool) (k i : String) (d : List String) :
    FComm (Q := Q) b (respond k i d) := FComm.modify (fun _ => rfl)

theorem FComm.ite {b : Bool} {c : Prop} [Decidable c] {f g : HM Q α} (hf : FComm b f)
    (hg : FComm b g) : FComm b (if c then f else g) := by
  split <;> assumption

theorem FComm.checkFailureCount (b : Bool) (cfg : HConfig) (r : Req) (t : String) :
    FComm (Q := Q) b (checkFailureCount cfg r t) := by
  unfold Broker.checkFailureCount
  refine FComm.get (fun s => ?_) (fun s => rfl)
  refine FComm.ite ?_ (FComm.pure _ _)
  refine FComm.bind (FComm.respond _ _ _ _) (fun _ => ?_)
  exact FComm.bind (FComm.respond _ _ _ _) (fun _ => FComm.pure _ _)

variable [QueueManager Q]

theorem FComm.qAddWorker (b : Bool) (env : Env) (w : Worker) (cur : Option Req) :
    FComm (Q := Q) b (qAddWorker env w cur) := by
  unfold Broker.qAddWorker
  refine FComm.get (fun s => ?_) (fun s => rfl)
  refine FComm.bind (FComm.liftE _ _) (fun x => ?_)
  exact FComm.bind (FComm.modify (fun _ => rfl)) (fun _ => FComm.pure _ _)

theorem FComm.qAssign (b : Bool) (env : Env) (w : Worker) :
    FComm (Q := Q) b (qAssign env w) := by
  unfold Broker.qAssign
  refine FComm.get (fun s => ?_) (fun s => rfl)
  refine FComm.bind (FComm.liftE _ _) (fun x => ?_)
  exact FComm.bind (FComm.modify (fun _ => rfl)) (fun _ => FComm.pure _ _)

theorem FComm.qFinished (b : Bool) (env : Env) (w : Worker) :
    FComm (Q := Q) b (qFinished env w) := by
  unfold Broker.qFinished
  refine FComm.get (fun s => ?_) (fun s => rfl)
  refine FComm.bind (FComm.liftE _ _) (fun x => ?_)
  exact FComm.bind (FComm.modify (fun _ => rfl)) (fun _ => FComm.pure _ _)

theorem FComm.qTerminated (b : Bool) (w : Worker) :
    FComm (Q := Q) b (qTerminated w) := by
  unfold Broker.qTerminated
  refine FComm.get (fun s => ?_) (fun s => rfl)
  refine FComm.bind (FComm.liftE _ _) (fun x => ?_)
  exact FComm.bind (FComm.modify (fun _ => rfl)) (fun _ => FComm.pure _ _)

theorem FComm.qEnqueue (b : Bool) (env : Env) (r : Req) :
    FComm (Q := Q) b (qEnqueue env r) := by
  unfold Broker.qEnqueue
  refine FComm.get (fun s => ?_) (fun s => rfl)
  refine FComm.bind (FComm.liftE _ _) (fun x => ?_)
  exact FComm.bind (FComm.modify (fun _ => rfl)) (fun _ => FComm.pure _ _)

theorem FComm.qCurrent (b : Bool) (w : Worker) : FComm (Q := Q) b (qCurrent w) := by
  unfold Broker.qCurrent
  refine FComm.get (fun s => ?_) (fun s => rfl)
  exact FComm.bind (FComm.modify (fun _ => rfl)) (fun _ => FComm.pure _ _)

theorem FComm.qCancelled (b : Bool) (w : Worker) : FComm (Q := Q) b (qCancelled w) := by
  unfold Broker.qCancelled
  refine FComm.get (fun s => ?_) (fun s => rfl)
  exact FComm.bind (FComm.modify (fun _ => rfl)) (fun _ => FComm.pure _ _)

theorem FComm.reassign (b : Bool) (env : Env) (r : Req) :
    FComm (Q := Q) b (reassignRequest env r) := by
  unfold reassignRequest
  refine FComm.bind (FComm.qEnqueue _ _ _) (fun x => ?_)
  refine FComm.ite ?_ ?_
  · cases x.assignedTo with
    | none => exact FComm.pure _ _
    | some w => exact FComm.bind (FComm.respond _ _ _ _) (fun _ => FComm.pure _ _)
  · exact FComm.bind (FComm.respond _ _ _ _) (fun _ => FComm.pure _ _)

theorem FComm.register (b : Bool) (env : Env) (i g : String) (hs : Headers) (x : List String) :
    FComm (Q := Q) b (registerWorker env i g hs x) := by
  unfold registerWorker
  intro s
  simp only [Bind.bind, EStateM.bind, MonadState.get, getThe, MonadStateOf.get, EStateM.get]
  rw [show (s.setFrozen b).addrs = s.addrs from rfl, show (s.setFrozen b).allocs = s.allocs from rfl]
  generalize Worker.create (env.alloc s.allocs s.addrs) i g hs (initExtra x "" none).1 = c
  cases c with
  | error e => rfl
  | ok w =>
    simp only [Broker.liftE, Pure.pure, EStateM.pure, MonadStateOf.set, EStateM.set]
    have hq := FComm.qAddWorker (Q := Q) b env w
      (Option.map (Req.incomplete s.nextRid) (initExtra x "" none).2)
      { s with
        workers := s.workers ++ [w], live := upd s.live (env.alloc s.allocs s.addrs) 0,
        fc := upd s.fc s.nextRid 0, nextRid := s.nextRid + 1, allocs := s.allocs + 1 }
    simp only [HState.setFrozen] at hq ⊢
    rw [hq]
    generalize Broker.qAddWorker (Q := Q) env w _ _ = res
    cases res with
    | error e s1 => rfl
    | ok r s1 => cases r <;> rfl

theorem FComm.init (b : Bool) (env : Env) (i : String) (d : List String) :
    FComm (Q := Q) b (processInit env i d) := by
  unfold processInit
  match d with
  | [] => exact FComm.pure _ _
  | [_] => exact FComm.pure _ _
  | _ :: g :: rest =>
    simp only
    refine FComm.get (fun s => ?_) (fun s => rfl)
    cases regFind i s.workers with
    | none => exact FComm.register _ _ _ _ _ _
    | some w =>
      refine FComm.ite (FComm.pure _ _) ?_
      exact FComm.bind (FComm.respond _ _ _ _) (fun _ => FComm.register _ _ _ _ _ _)

theorem FComm.sendIfSome (b : Bool) (w : Worker) (o : Option Req) :
    FComm (Q := Q) b (sendIfSome w o) := by
  cases o with
  | none => exact FComm.pure _ _
  | some r => exact FComm.respond _ _ _ _

theorem FComm.doneOk (b : Bool) (env : Env) (w : Worker) (j : String) :
    FComm (Q := Q) b (doneOk env w j) := by
  unfold Broker.doneOk
  refine FComm.bind (FComm.respond _ _ _ _) (fun _ => ?_)
  refine FComm.bind (FComm.qFinished _ _ _) (fun _ => ?_)
  exact FComm.bind (FComm.sendIfSome _ _ _) (fun _ => FComm.modify (fun _ => rfl))

theorem FComm.bump (b : Bool) (r : Req) : FComm (Q := Q) b (bumpCount r) :=
  FComm.modify (fun _ => rfl)

theorem FComm.doneInternal (b : Bool) (cfg : HConfig) (env : Env) (w : Worker) (t : String) :
    FComm (Q := Q) b (doneInternal cfg env w t) := by
  unfold Broker.doneInternal
  refine FComm.bind (FComm.qCancelled _ _) (fun o => ?_)
  cases o with
  | none => exact FComm.throw _ _
  | some r =>
    refine FComm.bind (FComm.bump _ _) (fun _ => ?_)
    simp only
    split
    · exact FComm.bind (FComm.respond _ _ _ _) (fun _ => FComm.modify (fun _ => rfl))
    · refine FComm.bind (FComm.checkFailureCount _ _ _ _) (fun c => ?_)
      cases c with
      | true =>
        exact FComm.bind (FComm.reassign _ _ _) (fun _ => FComm.modify (fun _ => rfl))
      | false =>
        refine FComm.bind (FComm.qAssign _ _ _) (fun _ => ?_)
        exact FComm.bind (FComm.sendIfSome _ _ _) (fun _ => FComm.modify (fun _ => rfl))

theorem FComm.doneFailed (b : Bool) (env : Env) (w : Worker) (j t : String) :
    FComm (Q := Q) b (doneFailed env w j t) := by
  unfold Broker.doneFailed
  refine FComm.bind (FComm.respond _ _ _ _) (fun _ => ?_)
  refine FComm.bind (FComm.qCancelled _ _) (fun o => ?_)
  cases o with
  | none => exact FComm.throw _ _
  | some r =>
    refine FComm.bind (FComm.bump _ _) (fun _ => ?_)
    refine FComm.bind (FComm.qAssign _ _ _) (fun _ => ?_)
    exact FComm.bind (FComm.sendIfSome _ _ _) (fun _ => FComm.modify (fun _ => rfl))

theorem FComm.done (b : Bool) (cfg : HConfig) (env : Env) (i : String) (d : List String) :
    FComm (Q := Q) b (processDone cfg env i d) := by
  unfold processDone
  refine FComm.get (fun s => ?_) (fun s => rfl)
  have hc : ∀ w, FComm (Q := Q) b (do let _ ← Broker.qCurrent w; Pure.pure ()) :=
    fun w => FComm.bind (FComm.qCurrent _ _) (fun _ => FComm.pure _ _)
  cases regFind i s.workers with
  | none => exact FComm.pure _ _
  | some w =>
    match d with
    | [] => exact FComm.pure _ _
    | [_] => exact FComm.pure _ _
    | [_, _] => exact FComm.pure _ _
    | _ :: j :: st :: rest =>
      simp only
      refine FComm.bind (FComm.qCurrent _ _) (fun o => ?_)
      cases o with
      | none => exact FComm.throw _ _
      | some r =>
        simp only
        refine FComm.ite (FComm.pure _ _) ?_
        refine FComm.ite (FComm.bind (FComm.doneOk _ _ _ _) (fun _ => hc _)) ?_
        refine FComm.ite ?_ (FComm.ite ?_ (hc _))
        · match rest with
          | [] => exact FComm.pure _ _
          | [t] => exact FComm.bind (FComm.doneInternal _ _ _ _ _) (fun _ => hc _)
          | _ :: _ :: _ => exact FComm.pure _ _
        · match rest with
          | [] => exact FComm.pure _ _
          | [t] => exact FComm.bind (FComm.doneFailed _ _ _ _ _) (fun _ => hc _)
          | _ :: _ :: _ => exact FComm.pure _ _

theorem FComm.ping (b : Bool) (i : String) : FComm (Q := Q) b (processPing i) := by
  unfold processPing
  refine FComm.get (fun s => ?_) (fun s => rfl)
  cases regFind i s.workers <;> exact FComm.respond _ _ _ _

theorem FComm.workerCommand (b : Bool) (cfg : HConfig) (env : Env) (c i : String)
    (d : List String) : FComm (Q := Q) b (workerCommand cfg env c i d) := by
  unfold Broker.workerCommand
  exact FComm.ite (FComm.init _ _ _ _) (FComm.ite (FComm.done _ _ _ _ _)
    (FComm.ite (FComm.ping _ _) (FComm.ite (FComm.respond _ _ _ _) (FComm.pure _ _))))

theorem FComm.tickWorker (b : Bool) (cfg : HConfig) (t : Int) (w : Worker) :
    FComm (Q := Q) b (tickWorker cfg t w) := by
  intro s
  simp only [Broker.tickWorker, Bind.bind, EStateM.bind, MonadState.get, getThe, MonadStateOf.get, EStateM.get]
  rw [show (s.setFrozen b).timers = s.timers from rfl, show (s.setFrozen b).live = s.live from rfl]
  split <;> rfl

theorem FComm.tickWorkers (b : Bool) (cfg : HConfig) (t : Int) (ws : List Worker) :
    FComm (Q := Q) b (tickWorkers cfg t ws) := by
  induction ws with
  | nil => exact FComm.pure _ _
  | cons w ws ih =>
    refine FComm.bind (FComm.tickWorker _ _ _ _) (fun _ => ?_)
    exact FComm.bind ih (fun _ => FComm.pure _ _)

theorem FComm.settle (b : Bool) (cfg : HConfig) (env : Env) (rs : List Req) :
    FComm (Q := Q) b (settleRequests cfg env rs) := by
  induction rs with
  | nil => exact FComm.pure _ _
  | cons r rs ih =>
    unfold settleRequests
    refine FComm.ite ?_ ?_
    · refine FComm.bind (FComm.respond _ _ _ _) (fun _ => ?_)
      exact FComm.bind (FComm.respond _ _ _ _) (fun _ => ih)
    · refine FComm.bind (FComm.checkFailureCount _ _ _ _) (fun c => ?_)
      refine FComm.ite ?_ ih
      refine FComm.bind (FComm.reassign _ _ _) (fun c => ?_)
      refine FComm.ite (FComm.bind (FComm.respond _ _ _ _) (fun _ => ih)) ?_
      exact FComm.bind ih (fun _ => FComm.pure _ _)

theorem FComm.rejectAll (b : Bool) (d : String) (rs : List Req) :
    FComm (Q := Q) b (rejectAll d rs) := by
  induction rs with
  | nil => exact FComm.pure _ _
  | cons r rs ih => exact FComm.bind (FComm.respond _ _ _ _) (fun _ => ih)

theorem FComm.expire (b : Bool) (cfg : HConfig) (env : Env) (w : Worker) :
    FComm (Q := Q) b (expireWorker cfg env w) := by
  unfold expireWorker
  refine FComm.bind (FComm.modify (fun _ => rfl)) (fun _ => ?_)
  refine FComm.bind (FComm.qCurrent _ _) (fun o => ?_)
  have h : FComm (Q := Q) b (do
      let requests ← Broker.qTerminated w
      let unassigned ← settleRequests cfg env requests
      Broker.rejectAll ("Worker " ++ w.getDescription ++ " dieded") unassigned) := by
    refine FComm.bind (FComm.qTerminated _ _) (fun _ => ?_)
    exact FComm.bind (FComm.settle _ _ _ _) (fun _ => FComm.rejectAll _ _ _)
  cases o with
  | none => exact h
  | some r => exact FComm.bind (FComm.bump _ _) (fun _ => h)

theorem FComm.expireAll (b : Bool) (cfg : HConfig) (env : Env) (ws : List Worker) :
    FComm (Q := Q) b (expireWorkers cfg env ws) := by
  induction ws with
  | nil => exact FComm.pure _ _
  | cons w ws ih => exact FComm.bind (FComm.expire _ _ _ _) (fun _ => ih)

theorem FComm.countIdle (b : Bool) (ws : List Worker) : FComm (Q := Q) b (countIdle ws) := by
  induction ws with
  | nil => exact FComm.pure _ _
  | cons w ws ih =>
    refine FComm.bind (FComm.qCurrent _ _) (fun _ => ?_)
    exact FComm.bind ih (fun _ => FComm.pure _ _)

theorem FComm.gauges (b : Bool) : FComm (Q := Q) b updateGauges := by
  unfold updateGauges
  refine FComm.get (fun s => ?_) (fun s => rfl)
  exact FComm.bind (FComm.countIdle _ _) (fun _ => FComm.modify (fun _ => rfl))

theorem FComm.timer (b : Bool) (cfg : HConfig) (env : Env) (d : List String) :
    FComm (Q := Q) b (processTimer cfg env d) := by
  unfold processTimer
  cases d with
  | nil => exact FComm.throw _ _
  | cons f _ =>
    refine FComm.bind (FComm.liftE _ _) (fun t => ?_)
    refine FComm.get (fun s => ?_) (fun s => rfl)
    refine FComm.bind (FComm.tickWorkers _ _ _ _) (fun _ => ?_)
    exact FComm.bind (FComm.expireAll _ _ _ _) (fun _ => FComm.gauges _)

theorem FComm.touch (b : Bool) (cfg : HConfig) (i : String) :
    FComm (Q := Q) b (touchWorker cfg i) := by
  intro s
  simp only [touchWorker, Bind.bind, EStateM.bind, MonadState.get, getThe, MonadStateOf.get, EStateM.get]
  rw [show (s.setFrozen b).workers = s.workers from rfl]
  cases regFind i s.workers <;> rfl

/-- Messages that are not from clients are handled in the same way whatever the flag is. -/
theorem step_setFrozen {cfg : HConfig} {env : Env} {m : Msg} (hk : m.key ≠ keyClients) (b : Bool)
    (s : HState Q) : step cfg env m (s.setFrozen b) = mapRes (·.setFrozen b) (step cfg env m s) := by
  have h : FComm (Q := Q) b (onRequest cfg env m) := by
    unfold onRequest
    refine FComm.ite ?_ ?_
    · refine FComm.bind (FComm.touch _ _ _) (fun _ => ?_)
      cases m.data with
      | nil => exact FComm.throw _ _
      | cons c _ => exact FComm.workerCommand _ _ _ _ _ _
    · rw [if_neg hk]
      exact FComm.ite (FComm.timer _ _ _ _) (FComm.pure _ _)
  exact h { s with outs := [] }

end Broker
