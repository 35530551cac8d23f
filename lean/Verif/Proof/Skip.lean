import Verif.Proof.Erase
import Verif.Proof.Trace
import Verif.Proof.MultiLaws
import Verif.Proof.SingleLaws
import Verif.Spec.Transcript

/-!
# Unused request objects

Handling messages does not depend on how many request objects and clock readings were used up by
requests that were rejected.
-/

set_option linter.unusedSectionVars false

namespace Broker

/-- The broker reads the clock once more than it would. -/
def Env.later (env : Env) : Env := { env with clock := fun n => env.clock (n + 1) }

/-- The request as it is if an object was created before the `k`-th one. -/
def Req.skip (k : Nat) (r : Req) : Req :=
  { r with rid := if r.rid < k then r.rid else r.rid + 1 }

theorem Req.skip_headers (k : Nat) (r : Req) : (r.skip k).headers = r.headers := rfl

/-- Counters by object, with one more object before the `k`-th one. -/
def skipFn (k : Nat) (f : Nat → Nat) : Nat → Nat :=
  fun x => if x < k then f x else if x = k then 0 else f (x - 1)

theorem skipFn_upd (k : Nat) (f : Nat → Nat) (a v : Nat) :
    upd (skipFn k f) (if a < k then a else a + 1) v = skipFn k (upd f a v) := by
  funext x
  simp only [upd, skipFn]
  split <;> split <;> split <;> (try split) <;> (try split) <;> (try omega)

theorem skipFn_at (k : Nat) (f : Nat → Nat) (a : Nat) :
    skipFn k f (if a < k then a else a + 1) = f a := by
  simp only [skipFn]
  by_cases h : a < k
  · simp [h]
  · have h1 : ¬ a + 1 < k := by omega
    have h2 : a + 1 ≠ k := by omega
    simp [h, h1, h2]

variable {Q : Type} [QueueManager Q] [BareQM Q] {k : Nat}

/-- The state with one more request object before the `k`-th one and one more reading of the
    clock. -/
def HState.skip (k : Nat) (s : HState Q) : HState Q :=
  { s with queue := BareQM.ren (Req.skip k) s.queue, fc := skipFn k s.fc, nextRid := s.nextRid + 1,
           clockReads := s.clockReads + 1 }

/-- `y` does in the state with one more request object what `x` does in the other. -/
def Skips (k : Nat) {α : Type} (f : α → α) (x y : HM Q α) : Prop :=
  ∀ s, k ≤ s.nextRid → match x s with
    | .ok a s' => y (s.skip k) = .ok (f a) (s'.skip k) ∧ k ≤ s'.nextRid
    | .error e s' => y (s.skip k) = .error e (s'.skip k)

theorem Skips.bind {α β : Type} {f : α → α} {g : β → β} {x y : HM Q α} {p q : α → HM Q β}
    (h : Skips k f x y) (hk : ∀ a, Skips k g (p a) (q (f a))) :
    Skips k g (x >>= p) (y >>= q) := by
  intro s hs
  have h0 := h s hs
  show match EStateM.bind x p s with
    | .ok a s' => EStateM.bind y q (s.skip k) = .ok (g a) (s'.skip k) ∧ k ≤ s'.nextRid
    | .error e s' => EStateM.bind y q (s.skip k) = .error e (s'.skip k)
  simp only [EStateM.bind]
  cases hx : x s with
  | ok a s' =>
    rw [hx] at h0
    simp only at h0 ⊢
    rw [h0.1]
    exact hk a s' h0.2
  | error e s' =>
    rw [hx] at h0
    simp only at h0 ⊢
    rw [h0]

theorem Skips.getBind {β : Type} {g : β → β} {p q : HState Q → HM Q β}
    (h : ∀ s, k ≤ s.nextRid → Skips k g (p s) (q (s.skip k))) :
    Skips k g (MonadState.get >>= p) (MonadState.get >>= q) := fun s hs => h s hs s hs

theorem Skips.pure {α : Type} {f : α → α} (a : α) :
    Skips (Q := Q) k f (pure a) (pure (f a)) := fun _ hs => ⟨rfl, hs⟩

theorem Skips.unit : Skips (Q := Q) k id (Pure.pure ()) (Pure.pure ()) := fun _ hs => ⟨rfl, hs⟩

theorem Skips.raise {α : Type} {f : α → α} (e : Exn) :
    Skips (Q := Q) k f (Broker.raise e) (Broker.raise e) := fun _ _ => rfl

theorem Skips.undef {α : Type} {f : α → α} (u : UB) :
    Skips (Q := Q) k f (Broker.undef u) (Broker.undef u) := fun _ _ => rfl

theorem Skips.set {s t : HState Q} (h : t = s.skip k) (hs : k ≤ s.nextRid) :
    Skips (Q := Q) (α := PUnit) k id (MonadStateOf.set s) (MonadStateOf.set t) := by
  subst h; exact fun _ _ => ⟨rfl, hs⟩

theorem Skips.modify {f g : HState Q → HState Q} (h : ∀ s, g (s.skip k) = (f s).skip k)
    (hn : ∀ s, (f s).nextRid = s.nextRid) :
    Skips (Q := Q) (α := PUnit) k id (_root_.modify f) (_root_.modify g) := by
  intro s hs
  show EStateM.Result.ok PUnit.unit (g (s.skip k)) = .ok PUnit.unit ((f s).skip k) ∧
    k ≤ (f s).nextRid
  rw [h, hn]
  exact ⟨rfl, hs⟩

theorem Skips.liftE {α : Type} {f : α → α} {x y : Except Exn α} (h : y = x.map f) :
    Skips (Q := Q) k f (Broker.liftE x) (Broker.liftE y) := by
  subst h
  cases x with
  | ok a => exact fun _ hs => ⟨rfl, hs⟩
  | error e => exact fun _ _ => rfl

theorem Skips.ite {α : Type} {f : α → α} {c : Prop} [Decidable c] {x x' y y' : HM Q α}
    (h : Skips k f x y) (h' : Skips k f x' y') :
    Skips k f (if c then x else x') (if c then y else y') := by
  split <;> assumption

theorem Skips.respond {key identity : String} {data : List String} :
    Skips (Q := Q) k id (Broker.respond key identity data) (Broker.respond key identity data) :=
  Skips.modify (fun _ => rfl) (fun _ => rfl)

theorem skips_send (w : Worker) (r : Req) :
    Skips (Q := Q) k id (sendRequest w r) (sendRequest w (r.skip k)) := Skips.respond

theorem skips_sendIf (w : Worker) (r : Option Req) :
    Skips (Q := Q) k id (sendIfSome w r) (sendIfSome w (r.map (Req.skip k))) := by
  cases r with
  | none => exact Skips.unit
  | some r => exact skips_send w r

theorem skips_check (cfg : HConfig) (r : Req) (t : String) :
    Skips (Q := Q) k id (checkFailureCount cfg r t) (checkFailureCount cfg (r.skip k) t) := by
  unfold checkFailureCount
  refine Skips.getBind fun s _ => ?_
  have e1 : (s.skip k).fc (r.skip k).rid = s.fc r.rid := skipFn_at _ _ _
  rw [e1]
  refine Skips.ite ?_ (Skips.pure (f := id) _)
  refine Skips.respond.bind fun _ => ?_
  exact Skips.respond.bind fun _ => Skips.pure (f := id) _

theorem skips_qAddWorker {env : Env} (he : BareQM.okSort Q env.srt) (w : Worker)
    (c : Option Req) :
    Skips (Q := Q) k (Option.map (Req.skip k)) (qAddWorker env.later w c)
      (qAddWorker env w (c.map (Req.skip k))) := by
  unfold qAddWorker
  refine Skips.getBind fun s hn => ?_
  refine (Skips.liftE (BareQM.addWorker he _ (Req.skip_headers k) _ _ _)).bind fun x => ?_
  exact Skips.bind (Skips.modify (fun _ => rfl) (fun _ => rfl)) fun _ => Skips.pure _

theorem skips_qAssign {env : Env} (he : BareQM.okSort Q env.srt) (w : Worker) :
    Skips (Q := Q) k (Option.map (Req.skip k)) (qAssign env.later w) (qAssign env w) := by
  unfold qAssign
  refine Skips.getBind fun s hn => ?_
  refine (Skips.liftE (BareQM.assignRequest he _ (Req.skip_headers k) _ _)).bind fun x => ?_
  exact Skips.bind (Skips.modify (fun _ => rfl) (fun _ => rfl)) fun _ => Skips.pure _

theorem skips_qFinished {env : Env} (he : BareQM.okSort Q env.srt) (w : Worker) :
    Skips (Q := Q) k (Option.map (Req.skip k)) (qFinished env.later w) (qFinished env w) := by
  unfold qFinished
  refine Skips.getBind fun s hn => ?_
  refine (Skips.liftE (BareQM.workerFinished he _ (Req.skip_headers k) _ _)).bind fun x => ?_
  exact Skips.bind (Skips.modify (fun _ => rfl) (fun _ => rfl)) fun _ => Skips.pure _

theorem skips_qTerminated (w : Worker) :
    Skips (Q := Q) k (List.map (Req.skip k)) (qTerminated w) (qTerminated w) := by
  unfold qTerminated
  refine Skips.getBind fun s hn => ?_
  refine (Skips.liftE (BareQM.workerTerminated _ (Req.skip_headers k) _ _)).bind fun x => ?_
  exact Skips.bind (Skips.modify (fun _ => rfl) (fun _ => rfl)) fun _ => Skips.pure _

theorem skips_qEnqueue (env : Env) (r : Req) :
    Skips (Q := Q) k id (qEnqueue env.later r) (qEnqueue env (r.skip k)) := by
  unfold qEnqueue
  refine Skips.getBind fun s hn => ?_
  refine (Skips.liftE (BareQM.enqueueRequest _ (Req.skip_headers k) _ _ _)).bind fun x => ?_
  exact Skips.bind (Skips.modify (fun _ => rfl) (fun _ => rfl)) fun _ => Skips.pure _

theorem skips_qCurrent (w : Worker) :
    Skips (Q := Q) k (Option.map (Req.skip k)) (qCurrent w) (qCurrent w) := by
  unfold qCurrent
  refine Skips.getBind fun s hn => ?_
  have e : (s.skip k).queue = BareQM.ren (Req.skip k) s.queue := rfl
  rw [e, BareQM.currentRequest _ (Req.skip_headers k)]
  exact Skips.bind (Skips.modify (fun _ => rfl) (fun _ => rfl)) fun _ => Skips.pure _

theorem skips_qCancelled (w : Worker) :
    Skips (Q := Q) k (Option.map (Req.skip k)) (qCancelled w) (qCancelled w) := by
  unfold qCancelled
  refine Skips.getBind fun s hn => ?_
  have e : (s.skip k).queue = BareQM.ren (Req.skip k) s.queue := rfl
  rw [e, BareQM.workerCancelled _ (Req.skip_headers k)]
  exact Skips.bind (Skips.modify (fun _ => rfl) (fun _ => rfl)) fun _ => Skips.pure _

theorem skips_reassign (env : Env) (r : Req) :
    Skips (Q := Q) k id (reassignRequest env.later r) (reassignRequest env (r.skip k)) := by
  unfold reassignRequest
  refine (skips_qEnqueue env r).bind fun res => ?_
  refine Skips.ite ?_ ?_
  · dsimp only [id]
    cases res.assignedTo with
    | none => exact Skips.pure _
    | some w => exact (skips_send w r).bind fun _ => Skips.pure _
  · exact Skips.respond.bind fun _ => Skips.pure _

/-! ### Client commands -/

theorem skips_submit (env : Env) (i j : String) (hs : Headers) (md : Metadata)
    (ex : List String) :
    Skips (Q := Q) k id (submit env.later i j hs md ex) (submit env i j hs md ex) := by
  unfold submit
  refine Skips.getBind fun s hn => ?_
  refine (Skips.set (by
    have h := skipFn_upd k s.fc s.nextRid 0
    rw [if_neg (by omega)] at h
    simp only [HState.skip, ← h]) (Nat.le_succ_of_le hn)).bind fun _ => ?_
  have e : Req.full (s.skip k).nextRid hs md j ex
      = (Req.full s.nextRid hs md j ex).skip k := by
    have hn' : ¬ s.nextRid < k := Nat.not_lt.2 hn
    simp [Req.full, Req.skip, HState.skip, hn']
  rw [e]
  refine (skips_qEnqueue env _).bind fun res => ?_
  refine Skips.ite ?_ ?_
  · dsimp only [id]
    cases res.assignedTo with
    | none =>
      exact Skips.respond
    | some w => exact Skips.bind (skips_send w _) fun _ => Skips.respond
  · exact Skips.bind Skips.respond fun _ => Skips.respond

theorem skips_eval (env : Env) (i : String) (m : List String) :
    Skips (Q := Q) k id (processEval env.later i m) (processEval env i m) := by
  unfold processEval
  refine Skips.respond.bind fun _ => ?_
  cases m[1]? with
  | none => exact Skips.raise _
  | some j =>
    dsimp only
    cases evalHeaders (m.drop 2) [] [] with
    | error u => exact Skips.undef _
    | ok o =>
      cases o with
      | none => exact Skips.unit
      | some x =>
        obtain ⟨hs, md, ex⟩ := x
        dsimp only
        refine Skips.getBind fun s hn => ?_
        exact Skips.ite Skips.respond (skips_submit _ _ _ _ _ _)

theorem skips_stats (i : String) :
    Skips (Q := Q) k id (processStats i) (processStats i) := by
  unfold processStats
  refine Skips.getBind fun s hn => ?_
  exact Skips.respond

theorem skips_freeze (i : String) :
    Skips (Q := Q) k id (processFreeze i) (processFreeze i) := by
  unfold processFreeze
  exact Skips.bind (Skips.modify (fun _ => rfl) (fun _ => rfl)) fun _ => Skips.respond

theorem skips_unfreeze (i : String) :
    Skips (Q := Q) k id (processUnfreeze i) (processUnfreeze i) := by
  unfold processUnfreeze
  exact Skips.bind (Skips.modify (fun _ => rfl) (fun _ => rfl)) fun _ => Skips.respond

/-! ### Worker commands -/

theorem skips_register {env : Env} (he : BareQM.okSort Q env.srt) (i g : String) (hs : Headers)
    (ex : List String) :
    Skips (Q := Q) k id (registerWorker env.later i g hs ex) (registerWorker env i g hs ex) := by
  unfold registerWorker
  refine Skips.getBind fun s hn => ?_
  cases initExtra ex "" none with
  | mk d j =>
    dsimp only
    have e0 : (s.skip k).addrs = s.addrs := rfl
    have e1 : (s.skip k).allocs = s.allocs := rfl
    have e2 : env.later.alloc = env.alloc := rfl
    rw [e0, e1, e2]
    refine (Skips.liftE (f := id) (by
      cases Worker.create (env.alloc s.allocs s.addrs) i g hs d <;> rfl)).bind fun w => ?_
    refine (Skips.set (by
    have h := skipFn_upd k s.fc s.nextRid 0
    rw [if_neg (by omega)] at h
    simp only [HState.skip, ← h]; rfl) (Nat.le_succ_of_le hn)).bind fun _ => ?_
    have e : Option.map (Req.incomplete (s.skip k).nextRid) j
        = (Option.map (Req.incomplete s.nextRid) j).map (Req.skip k) := by
      cases j <;> simp [Req.incomplete, Req.skip, HState.skip, Nat.not_lt.2 hn]
    rw [e]
    refine (skips_qAddWorker he w _).bind fun o => ?_
    cases o with
    | none => exact Skips.modify (fun _ => rfl) (fun _ => rfl)
    | some r => exact Skips.bind (skips_send w r) fun _ => Skips.modify (fun _ => rfl) (fun _ => rfl)

theorem skips_init {env : Env} (he : BareQM.okSort Q env.srt) (i : String) (m : List String) :
    Skips (Q := Q) k id (processInit env.later i m) (processInit env i m) := by
  unfold processInit
  match m with
  | [] => exact Skips.unit
  | [_] => exact Skips.unit
  | _ :: g :: rest =>
    dsimp only
    refine Skips.getBind fun s hn => ?_
    have e : (s.skip k).workers = s.workers := rfl
    rw [e]
    cases regFind i s.workers with
    | none => exact skips_register he _ _ _ _
    | some w =>
      refine Skips.ite Skips.unit ?_
      exact Skips.bind Skips.respond fun _ => skips_register he _ _ _ _

theorem skips_bump (r : Req) :
    Skips (Q := Q) k id (bumpCount r) (bumpCount (r.skip k)) := Skips.modify (fun s => by
    have e1 : (s.skip k).fc (r.skip k).rid = s.fc r.rid := skipFn_at _ _ _
    rw [e1]
    simp only [HState.skip, ← skipFn_upd]
    rfl) (fun _ => rfl)

theorem skips_countFailed : Skips (Q := Q) k id countFailed countFailed :=
  Skips.modify (fun _ => rfl) (fun _ => rfl)

theorem skips_countEvaluated : Skips (Q := Q) k id countEvaluated countEvaluated :=
  Skips.modify (fun _ => rfl) (fun _ => rfl)

theorem skips_doneOk {env : Env} (he : BareQM.okSort Q env.srt) (w : Worker) (j : String) :
    Skips (Q := Q) k id (doneOk env.later w j) (doneOk env w j) := by
  unfold doneOk
  refine Skips.bind Skips.respond fun _ => ?_
  refine Skips.bind (skips_qFinished he w) fun o => ?_
  exact Skips.bind (skips_sendIf w o) fun _ => skips_countEvaluated

theorem skips_doneInternal (cfg : HConfig) {env : Env} (he : BareQM.okSort Q env.srt)
    (w : Worker) (t : String) :
    Skips (Q := Q) k id (doneInternal cfg env.later w t) (doneInternal cfg env w t) := by
  unfold doneInternal
  refine Skips.bind (skips_qCancelled w) fun o => ?_
  cases o with
  | none => exact Skips.undef _
  | some r =>
    simp only [Option.map_some]
    refine Skips.bind (skips_bump r) fun _ => ?_
    have e : (r.skip k).complete = r.complete := rfl
    rw [e]
    refine Skips.ite ?_ ?_
    · exact Skips.bind Skips.respond fun _ => skips_countFailed
    · refine Skips.bind (skips_check cfg r t) fun b => ?_
      refine Skips.ite ?_ ?_
      · refine Skips.bind (skips_reassign env r) fun _ => ?_
        exact skips_countFailed
      · refine Skips.bind (skips_qAssign he w) fun o => ?_
        exact Skips.bind (skips_sendIf w o) fun _ => skips_countFailed

theorem skips_doneFailed {env : Env} (he : BareQM.okSort Q env.srt) (w : Worker)
    (j t : String) :
    Skips (Q := Q) k id (doneFailed env.later w j t)
      (doneFailed env w j t) := by
  unfold doneFailed
  refine Skips.bind Skips.respond fun _ => ?_
  refine Skips.bind (skips_qCancelled w) fun o => ?_
  cases o with
  | none => exact Skips.undef _
  | some r =>
    simp only [Option.map_some]
    refine Skips.bind (skips_bump r) fun _ => ?_
    refine Skips.bind (skips_qAssign he w) fun o => ?_
    exact Skips.bind (skips_sendIf w o) fun _ => skips_countFailed

theorem skips_current_unit (w : Worker) :
    Skips (Q := Q) k id (do let _ ← qCurrent w) (do let _ ← qCurrent w) :=
  Skips.bind (skips_qCurrent w) fun _ => Skips.unit

theorem skips_done (cfg : HConfig) {env : Env} (he : BareQM.okSort Q env.srt) (i : String)
    (m : List String) :
    Skips (Q := Q) k id (processDone cfg env.later i m) (processDone cfg env i m) := by
  unfold processDone
  refine Skips.getBind fun s hn => ?_
  have e : (s.skip k).workers = s.workers := rfl
  rw [e]
  cases regFind i s.workers with
  | none => exact Skips.unit
  | some w =>
    dsimp only
    match m with
    | [] => exact Skips.unit
    | [_] => exact Skips.unit
    | [_, _] => exact Skips.unit
    | _ :: j :: st :: rest =>
      dsimp only
      refine Skips.bind (skips_qCurrent w) fun o => ?_
      cases o with
      | none => exact Skips.undef _
      | some r =>
        simp only [Option.map_some]
        have e : (r.skip k).jobId = r.jobId := rfl
        simp only [e]
        refine Skips.ite Skips.unit (Skips.ite ?_ (Skips.ite ?_ (Skips.ite ?_ ?_)))
        · exact Skips.bind (skips_doneOk he w j) fun _ => skips_current_unit w
        · match rest with
          | [] => exact Skips.unit
          | [t] =>
            exact Skips.bind (skips_doneInternal cfg he w t) fun _ => skips_current_unit w
          | _ :: _ :: _ => exact Skips.unit
        · match rest with
          | [] => exact Skips.unit
          | [t] =>
            exact Skips.bind (skips_doneFailed he w j t) fun _ => skips_current_unit w
          | _ :: _ :: _ => exact Skips.unit
        · exact skips_current_unit w

theorem skips_ping (i : String) : Skips (Q := Q) k id (processPing i) (processPing i) := by
  unfold processPing
  refine Skips.getBind fun s hn => ?_
  have e : (s.skip k).workers = s.workers := rfl
  rw [e]
  cases regFind i s.workers <;> exact Skips.respond

theorem skips_progress (m : List String) :
    Skips (Q := Q) k id (processProgress m) (processProgress m) := by
  unfold processProgress
  exact Skips.respond

theorem skips_worker (cfg : HConfig) {env : Env} (he : BareQM.okSort Q env.srt) (c i : String)
    (m : List String) :
    Skips (Q := Q) k id (workerCommand cfg env.later c i m) (workerCommand cfg env c i m) := by
  unfold workerCommand
  exact Skips.ite (skips_init he i m) (Skips.ite (skips_done cfg he i m)
    (Skips.ite (skips_ping i) (Skips.ite (skips_progress m) Skips.unit)))

/-! ### Timer -/

theorem skips_tickBody (cfg : HConfig) (t : Int) (dec : Nat → Nat) (zero : Nat → Bool)
    (w : Worker) :
    Skips (Q := Q) k id (tickBody cfg t dec zero w) (tickBody cfg t dec zero w) := by
  unfold tickBody
  refine Skips.getBind fun s hn => ?_
  refine Skips.ite ?_ ?_
  · exact Skips.bind (Skips.set rfl hn) fun _ => Skips.pure (zero (dec (s.live w.addr)))
  · exact Skips.bind (Skips.set rfl hn) fun _ => Skips.pure _

theorem skips_tick (cfg : HConfig) (t : Int) (w : Worker) :
    Skips (Q := Q) k id (tickWorker cfg t w) (tickWorker cfg t w) :=
  skips_tickBody cfg t szDec (fun l => decide (l ≤ 0)) w

theorem skips_ticks (cfg : HConfig) (t : Int) (ws : List Worker) :
    Skips (Q := Q) k id (tickWorkers cfg t ws) (tickWorkers cfg t ws) := by
  induction ws with
  | nil => exact Skips.pure _
  | cons w ws ih =>
    unfold tickWorkers
    refine Skips.bind (skips_tick cfg t w) fun b => ?_
    exact Skips.bind ih fun r => Skips.pure _

theorem skips_settle (cfg : HConfig) (env : Env) (rs : List Req) :
    Skips (Q := Q) k (List.map (Req.skip k)) (settleRequests cfg env.later rs)
      (settleRequests cfg env (rs.map (Req.skip k))) := by
  induction rs with
  | nil => exact Skips.pure _
  | cons r rs ih =>
    unfold settleRequests
    simp only [List.map_cons]
    have e : (r.skip k).complete = r.complete := rfl
    rw [e]
    refine Skips.ite ?_ ?_
    · refine Skips.bind Skips.respond fun _ => ?_
      exact Skips.bind Skips.respond fun _ => ih
    · refine Skips.bind (skips_check cfg r timeoutMsg) fun b => ?_
      refine Skips.ite ?_ ih
      refine Skips.bind (skips_reassign env r) fun b => ?_
      refine Skips.ite ?_ ?_
      · exact Skips.bind Skips.respond fun _ => ih
      · exact Skips.bind ih fun _ => Skips.pure _

theorem skips_rejectAll (d : String) (rs : List Req) :
    Skips (Q := Q) k id (rejectAll d rs) (rejectAll d (rs.map (Req.skip k))) := by
  induction rs with
  | nil => exact Skips.unit
  | cons r rs ih =>
    unfold rejectAll
    exact Skips.bind Skips.respond fun _ => ih

theorem skips_expire (cfg : HConfig) (env : Env) (w : Worker) :
    Skips (Q := Q) k id (expireWorker cfg env.later w) (expireWorker cfg env w) := by
  unfold expireWorker
  refine Skips.bind (Skips.modify (fun _ => rfl) (fun _ => rfl)) fun _ => ?_
  refine Skips.bind (skips_qCurrent w) fun o => ?_
  have tail : Skips (Q := Q) k id
      (do
        let requests ← qTerminated w
        let unassigned ← settleRequests cfg env.later requests
        rejectAll ("Worker " ++ w.getDescription ++ " dieded") unassigned)
      (do
        let requests ← qTerminated w
        let unassigned ← settleRequests cfg env requests
        rejectAll ("Worker " ++ w.getDescription ++ " dieded") unassigned) := by
    refine Skips.bind (skips_qTerminated w) fun rs => ?_
    exact Skips.bind (skips_settle cfg env rs) fun _ => skips_rejectAll _ _
  cases o with
  | none => exact tail
  | some r => exact Skips.bind (skips_bump r) fun _ => tail

theorem skips_expires (cfg : HConfig) (env : Env) (ws : List Worker) :
    Skips (Q := Q) k id (expireWorkers cfg env.later ws) (expireWorkers cfg env ws) := by
  induction ws with
  | nil => exact Skips.unit
  | cons w ws ih => exact Skips.bind (skips_expire cfg env w) fun _ => ih

theorem skips_countIdle (ws : List Worker) :
    Skips (Q := Q) k id (countIdle ws) (countIdle ws) := by
  induction ws with
  | nil => exact Skips.pure _
  | cons w ws ih =>
    unfold countIdle
    refine Skips.bind (skips_qCurrent w) fun o => ?_
    refine Skips.bind ih fun n => ?_
    cases o <;> exact Skips.pure _

theorem skips_gauges : Skips (Q := Q) k id updateGauges updateGauges := by
  unfold updateGauges
  refine Skips.getBind fun s hn => ?_
  have e1 : (s.skip k).queue = BareQM.ren (Req.skip k) s.queue := rfl
  have e2 : (s.skip k).workers = s.workers := rfl
  simp only [e1, e2, BareQM.queuedCount _ (Req.skip_headers k)]
  exact Skips.bind (skips_countIdle _) fun n => Skips.modify (fun _ => rfl) (fun _ => rfl)

theorem skips_timer (cfg : HConfig) (env : Env) (d : List String) :
    Skips (Q := Q) k id (processTimer cfg env.later d) (processTimer cfg env d) := by
  unfold processTimer
  match d with
  | [] => exact Skips.undef _
  | f :: _ =>
    dsimp only
    refine Skips.bind (Skips.liftE (f := id) (by cases stoll f <;> rfl)) fun t => ?_
    refine Skips.getBind fun s hn => ?_
    refine Skips.bind (skips_ticks cfg t _) fun ws => ?_
    exact Skips.bind (skips_expires cfg env ws) fun _ => skips_gauges

/-! ### Events -/

theorem skips_touch (cfg : HConfig) (i : String) :
    Skips (Q := Q) k id (touchWorker cfg i) (touchWorker cfg i) := by
  unfold touchWorker
  refine Skips.getBind fun s hn => ?_
  have e : (s.skip k).workers = s.workers := rfl
  rw [e]
  cases regFind i s.workers with
  | none => exact Skips.unit
  | some w => exact Skips.set rfl hn

theorem skips_request (cfg : HConfig) {env : Env} (he : BareQM.okSort Q env.srt) (m : Msg) :
    Skips (Q := Q) k id (onRequest cfg env.later m) (onRequest cfg env m) := by
  obtain ⟨k, i, d⟩ := m
  unfold onRequest
  refine Skips.ite ?_ (Skips.ite ?_ (Skips.ite (skips_timer cfg env _) Skips.unit))
  · refine Skips.bind (skips_touch cfg _) fun _ => ?_
    cases d with
    | nil => exact Skips.raise _
    | cons c t => exact skips_worker cfg he c i _
  · cases d with
    | nil => exact Skips.raise _
    | cons c t =>
      dsimp only
      unfold clientCommand
      exact Skips.ite (skips_eval env _ _) (Skips.ite (skips_stats _)
        (Skips.ite (skips_freeze _) (Skips.ite (skips_unfreeze _) Skips.unit)))

/-! ## Histories -/

theorem step_skip {cfg : HConfig} {env : Env} (he : BareQM.okSort Q env.srt) {m : Msg} {s : HState Q}
    (hk : k ≤ s.nextRid) : match step cfg env.later m s with
      | .ok _ s' => step cfg env m (s.skip k) = .ok () (s'.skip k) ∧ k ≤ s'.nextRid
      | .error e s' => step cfg env m (s.skip k) = .error e (s'.skip k) := by
  have h := skips_request (Q := Q) (k := k) cfg he m { s with outs := [] } hk
  show match onRequest cfg env.later m { s with outs := [] } with
    | .ok _ s' => onRequest cfg env m { s.skip k with outs := [] } = .ok () (s'.skip k) ∧ k ≤ s'.nextRid
    | .error e s' => onRequest cfg env m { s.skip k with outs := [] } = .error e (s'.skip k)
  cases hx : onRequest cfg env.later m { s with outs := [] } with
  | ok a s' => rw [hx] at h; exact h
  | error e s' => rw [hx] at h; exact h

/-- What is seen does not depend on unused request objects. -/
theorem transcript_skip {cfg : HConfig} {env : Env} (he : BareQM.okSort Q env.srt) (ms : List Msg)
    {s : HState Q} (hk : k ≤ s.nextRid) :
    transcript cfg env (s.skip k) ms = transcript cfg env.later s ms := by
  induction ms generalizing s with
  | nil => rfl
  | cons m ms ih =>
    have h := step_skip (cfg := cfg) he (m := m) hk
    unfold transcript
    cases hx : step cfg env.later m s with
    | ok a s' =>
      rw [hx] at h
      simp only at h ⊢
      rw [h.1]
      simp only [ih h.2]
      rfl
    | error e s' =>
      rw [hx] at h
      simp only at h ⊢
      rw [h]
      rfl

/-- What is seen does not depend on what was sent before. -/
theorem transcript_outs {Q : Type} [QueueManager Q] {cfg : HConfig} {env : Env} {s s' : HState Q}
    (h : ({ s with outs := [] } : HState Q) = { s' with outs := [] }) (ms : List Msg) :
    transcript cfg env s ms = transcript cfg env s' ms := by
  cases ms with
  | nil => rfl
  | cons m ms =>
    have : step cfg env m s = step cfg env m s' := by
      unfold step
      rw [h]
    unfold transcript
    rw [this]

/-- Queue managers that leave everything as it is when they reject a request. -/
class RejectQM (Q : Type) [QueueManager Q] [BareQM Q] [LawfulQM Q] where
  reject : ∀ {q q' : Q} {now : Int} {r : Req} {res : EnqResult},
    QueueManager.enqueueRequest q now r = .ok (res, q') → res.enqueued = false → q' = q
  fix : ∀ {q : Q} {g : Req → Req}, (∀ r ∈ LawfulQM.que q, g r = r) →
    (∀ p ∈ LawfulQM.busy q, g p.2 = p.2) → BareQM.ren g q = q

theorem mapv_fix {V : Type} {f : V → V} {m : WMap V} (h : ∀ e ∈ m, f e.2 = e.2) :
    m.mapv f = m := by
  unfold WMap.mapv
  conv_rhs => rw [← List.map_id m]
  refine List.map_congr_left fun e he => ?_
  rw [h e he]; rfl

instance : RejectQM Multi where
  reject := by
    intro q q' now r res h hr
    simp only [QueueManager.enqueueRequest, Multi.enqueueRequest] at h
    cases hf : Multi.findWorker r.headers q.ring with
    | error e => rw [hf] at h; cases h
    | ok o =>
      rw [hf] at h
      cases o with
      | none => cases h; rfl
      | some w =>
        simp only [Except.bind_ok] at h
        cases hc : q.current.getD w none with
        | none => rw [hc] at h; cases h; cases hr
        | some r' => rw [hc] at h; cases h; cases hr
  fix := by
    intro q g hq hb
    show Multi.ren g q = q
    unfold Multi.ren
    rw [mapv_fix, mapv_fix]
    · rintro ⟨w, c⟩ he
      cases c with
      | none => rfl
      | some r =>
        show some (g r) = some r
        rw [hb (w, r) ?_]
        show (w, r) ∈ (busyList q.current : Multiset (Worker × Req))
        simp only [Multiset.mem_coe]
        exact mem_busyList.2 he
    · rintro ⟨w, l⟩ he
      show l.map g = l
      conv_rhs => rw [← List.map_id l]
      refine List.map_congr_left fun r hr => hq r ?_
      show r ∈ (Multi.queList q.queues : Multiset Req)
      simp only [Multiset.mem_coe, Multi.queList, List.mem_flatMap]
      exact ⟨_, he, hr⟩

instance : RejectQM Single where
  reject := by
    intro q q' now r res h hr
    simp only [QueueManager.enqueueRequest, Single.enqueueRequest] at h
    cases hf : Single.select r q.current with
    | error e => rw [hf] at h; cases h
    | ok o =>
      rw [hf] at h
      cases o with
      | some w => cases h; cases hr
      | none =>
        simp only [Except.bind_ok] at h
        cases hc : Single.isAssignable r q.workers with
        | error e => rw [hc] at h; cases h
        | ok b =>
          rw [hc] at h
          cases b with
          | false => cases h; rfl
          | true => cases h; cases hr
  fix := by
    intro q g hq hb
    show Single.ren g q = q
    unfold Single.ren
    rw [mapv_fix]
    · have : q.jobs.map (Entry.ren g) = q.jobs := by
        conv_rhs => rw [← List.map_id q.jobs]
        refine List.map_congr_left fun e he => ?_
        unfold Entry.ren
        rw [hq e.1 ?_]; rfl
        show e.1 ∈ (Single.queList q.jobs : Multiset Req)
        simp only [Multiset.mem_coe, Single.queList, List.mem_map]
        exact ⟨_, he, rfl⟩
      rw [this]
    · rintro ⟨w, c⟩ he
      cases c with
      | none => rfl
      | some r =>
        show some (g r) = some r
        rw [hb (w, r) ?_]
        show (w, r) ∈ (busyList q.current : Multiset (Worker × Req))
        simp only [Multiset.mem_coe]
        exact mem_busyList.2 he

theorem submit_eq (env : Env) (i j : String) (hs : Headers) (md : Metadata) (ex : List String)
    (s : HState Q) :
    submit env i j hs md ex s =
      match QueueManager.enqueueRequest s.queue (env.clock s.clockReads)
          (Req.full s.nextRid hs md j ex) with
      | .error e => .error (.exn e) { s with nextRid := s.nextRid + 1, fc := upd s.fc s.nextRid 0 }
      | .ok (res, q) =>
        if res.enqueued then
          .ok () { s with
            nextRid := s.nextRid + 1, fc := upd s.fc s.nextRid 0, queue := q,
            clockReads := s.clockReads + 1,
            outs := (match res.assignedTo with
              | some w => s.outs ++ [⟨keyWorkers, w.identity, (Req.full s.nextRid hs md j ex).frames⟩]
              | none => s.outs) ++ [⟨keyClients, i, ["accept"]⟩] }
        else
          .ok () { s with
            nextRid := s.nextRid + 1, fc := upd s.fc s.nextRid 0, queue := q,
            clockReads := s.clockReads + 1,
            outs := s.outs ++ [⟨keyClients, i, ["reject", rejectMessage hs]⟩,
              ⟨keyMonitor, monitorIdentity, [j, "FAILED"]⟩] } := by
  unfold submit qEnqueue
  show EStateM.bind _ _ s = _
  cases h : QueueManager.enqueueRequest s.queue (env.clock s.clockReads)
          (Req.full s.nextRid hs md j ex) with
  | error e => 
    simp [EStateM.bind, bind, get, getThe, MonadStateOf.get, EStateM.get, set, MonadStateOf.set, EStateM.set, h, liftE, raise, throw, throwThe, MonadExceptOf.throw, EStateM.throw]
  | ok x =>
    obtain ⟨⟨a, b⟩, q⟩ := x
    cases b <;> cases a <;> simp [EStateM.bind, bind, get, getThe, MonadStateOf.get, EStateM.get, set, MonadStateOf.set, EStateM.set, h, liftE, pure, EStateM.pure, modify, modifyGet, MonadStateOf.modifyGet, EStateM.modifyGet, respond, notifyMonitor, sendRequest]

/-- Objects that do not exist yet have no failures. -/
theorem LStep.fresh {M : Nat} {L L' : LS} {e : Ev} (h : LStep M L e L') (hi : LInv M L)
    (hz : ∀ x, L.nextRid ≤ x → L.fc x = 0) : ∀ x, L'.nextRid ≤ x → L'.fc x = 0 := by
  have hb : ∀ w r b, L.busy = (w, r) ::ₘ b → r.rid < L.nextRid := by
    intro w r b hb
    refine hi.lt r (LS.mem_held.2 (Or.inl ⟨w, ?_⟩))
    rw [hb]; exact Multiset.mem_cons_self _ _
  intro x hx
  have hnew : L.nextRid + 1 ≤ x → upd L.fc L.nextRid 0 x = 0 := by
    intro hx
    simp only [upd]
    split
    · rfl
    · exact hz x (by omega)
  have hold : ∀ w r b, L.busy = (w, r) ::ₘ b → L.nextRid ≤ x → bump L.fc r x = 0 := by
    intro w r b h hx
    have := hb w r b h
    simp only [bump, upd]
    split
    · omega
    · exact hz x hx
  cases h with
  | drop => exact hnew hx
  | accept => exact hnew hx
  | register => exact hnew hx
  | failed w r text b h => exact hold w r b h hx
  | cancel w r b h => exact hold w r b h hx
  | expire w cur qs g b q _ h _ =>
    cases cur with
    | none => exact hz x hx
    | some r => exact hold w r b (by rw [h]; simp) hx
  | _ => exact hz x hx

theorem LSteps.fresh {M : Nat} (hM : M < SZ) {L L' : LS} {es : List Ev} (h : LSteps M L es L')
    (hi : LInv M L) (hz : ∀ x, L.nextRid ≤ x → L.fc x = 0) : ∀ x, L'.nextRid ≤ x → L'.fc x = 0 := by
  induction h with
  | nil => exact hz
  | cons h _ ih => exact ih (h.linv hM hi) (h.fresh hi hz)

theorem Run.fresh {Q : Type} [QueueManager Q] [LawfulQM Q] {cfg : HConfig} {env : Env}
    {h : List (Tr Q)} {s : HState Q} (hr : Run cfg env h s) : ∀ x, s.nextRid ≤ x → s.fc x = 0 := by
  refine Run.induct (P := fun _ s => ∀ x, s.nextRid ≤ x → s.fc x = 0) (fun _ _ => rfl) ?_ hr
  intro h s m s' evs _ _ hi ih _ hinfo
  exact hinfo.steps.fresh cfg.maxFailures_lt hi ih

variable [LawfulQM Q] [RejectQM Q]

/-- The state after a rejection. -/
theorem Run.skip_eq {cfg : HConfig} {env : Env} {h : List (Tr Q)} {s : HState Q}
    (hr : Run cfg env h s) : s.skip s.nextRid = { s with
      nextRid := s.nextRid + 1, fc := upd s.fc s.nextRid 0, clockReads := s.clockReads + 1 } := by
  have hz := hr.fresh
  have hlt := hr.inv.2.lt
  have hq : BareQM.ren (Req.skip s.nextRid) s.queue = s.queue := by
    have hfix : ∀ r : Req, r.rid < s.nextRid → r.skip s.nextRid = r := by
      intro r h
      unfold Req.skip
      rw [if_pos h]
    refine RejectQM.fix (fun r h => hfix r ?_) (fun p h => hfix p.2 ?_)
    · exact hlt r (LS.mem_held.2 (Or.inr (Or.inl h)))
    · exact hlt p.2 (LS.mem_held.2 (Or.inl ⟨p.1, h⟩))
  have hf : skipFn s.nextRid s.fc = upd s.fc s.nextRid 0 := by
    funext x
    unfold skipFn upd
    split
    · rename_i h; rw [if_neg (by omega)]
    · split
      · rfl
      · rw [hz x (by omega), hz _ (by omega)]
  unfold HState.skip
  rw [hq, hf]

/-- What a message of a client that is not accepted leaves behind. -/
theorem Run.unseen {cfg : HConfig} {env : Env} {h : List (Tr Q)} {s s' : HState Q} {m : Msg}
    (hr : Run cfg env h s) (hk : m.key = keyClients) (hs : step cfg env m s = .ok () s')
    (hf : m.data.head? ≠ some "freeze") (hu : m.data.head? ≠ some "unfreeze")
    (hno : (⟨keyClients, m.identity, ["accept"]⟩ : Msg) ∉ s'.outs) :
    s' = { s with outs := s'.outs } ∨ s' = { s.skip s.nextRid with outs := s'.outs } ∧
      (⟨keyMonitor, monitorIdentity, [m.data.getD 1 "", "FAILED"]⟩ : Msg) ∈ s'.outs := by
  unfold step onRequest at hs
  rw [if_neg (by rw [hk]; decide), if_pos hk] at hs
  cases hd : m.data with
  | nil => rw [hd] at hs; cases hs
  | cons c rest =>
    rw [hd] at hs hf hu
    simp only [List.head?_cons, ne_eq, Option.some.injEq] at hf hu
    simp only [clientCommand, if_neg hf, if_neg hu] at hs
    by_cases hc : c = "eval"
    · rw [if_pos hc] at hs
      unfold processEval at hs
      cases hj : (c :: rest)[1]? with
      | none =>
        rw [hj] at hs
        cases hs
      | some j =>
        rw [hj] at hs
        simp only at hs
        cases hp : evalHeaders ((c :: rest).drop 2) [] [] with
        | error u => rw [hp] at hs; cases hs
        | ok o =>
          rw [hp] at hs
          cases o with
          | none => cases hs; exact Or.inl rfl
          | some x =>
            obtain ⟨hds, md, ex⟩ := x
            by_cases hfr : s.frozen = true
            · left
              have : ∀ z, (respond keyClients m.identity ["ack"] >>= fun _ => (get : HM Q (HState Q)) >>= fun s =>
                if s.frozen then respond keyClients m.identity ["reject", "The broker is frozen."]
                else submit env m.identity j hds md ex) { s with outs := [] } = .ok () z →
                z = { s with outs := z.outs } := by
                intro z hz
                simp only [bind, EStateM.bind, respond, modify, modifyGet, MonadStateOf.modifyGet,
                  EStateM.modifyGet, get, getThe, MonadStateOf.get, EStateM.get, if_pos hfr] at hz
                cases hz
                rfl
              exact this _ hs
            · have hs' : submit env m.identity j hds md ex
                  { s with outs := [⟨keyClients, m.identity, ["ack"]⟩] } = .ok () s' := by
                have : ∀ z, (respond keyClients m.identity ["ack"] >>= fun _ => (get : HM Q (HState Q)) >>= fun s =>
                  if s.frozen then respond keyClients m.identity ["reject", "The broker is frozen."]
                  else submit env m.identity j hds md ex) { s with outs := [] } = .ok () z →
                  submit env m.identity j hds md ex
                  { s with outs := [⟨keyClients, m.identity, ["ack"]⟩] } = .ok () z := by
                  intro z hz
                  simp only [bind, EStateM.bind, respond, modify, modifyGet, MonadStateOf.modifyGet,
                    EStateM.modifyGet, get, getThe, MonadStateOf.get, EStateM.get, if_neg hfr] at hz
                  exact hz
                exact this _ hs
              rw [submit_eq] at hs'
              cases he : QueueManager.enqueueRequest s.queue (env.clock s.clockReads)
                  (Req.full s.nextRid hds md j ex) with
              | error e => simp only [he] at hs'; cases hs'
              | ok p =>
                obtain ⟨res, q⟩ := p
                simp only [he] at hs'
                cases hres : res.enqueued with
                | true =>
                  rw [hres] at hs'
                  simp only [if_true] at hs'
                  exfalso
                  apply hno
                  cases hs'
                  simp
                | false =>
                  rw [hres] at hs'
                  have hq := RejectQM.reject he hres
                  subst hq
                  right
                  rw [hr.skip_eq]
                  have hj' : (c :: rest).getD 1 "" = j := by
                    rw [List.getD_eq_getElem?_getD, hj]; rfl
                  rw [hj']
                  have hb : (false = true) = False := by simp
                  simp only [hb, if_false] at hs'
                  cases hs'
                  exact ⟨rfl, by simp⟩
    · rw [if_neg hc] at hs
      split at hs
      · cases hs; exact Or.inl rfl
      · cases hs; exact Or.inl rfl

end Broker
