import Verif.Proof.Ticks
import Verif.Proof.Liveness
import Verif.Props.Registry
import Verif.Spec.Transcript

/-!
# Limits

The configured limits are observed only when they are reached.
-/

set_option linter.unusedSectionVars false
set_option linter.unusedSimpArgs false

namespace Broker

namespace Spec

/-- A message to the frontend: the broker gives up a job because it failed too often. -/
def GivenUp (o : Msg) : Prop :=
  o.key = "status_notifier" ∧ ∃ j n t, o.data = ["type", "job-status", "id", j, "status", "FAILED",
    "message", "Job was reassigned too many (" ++ n ++ ") times. Last failure message was: " ++ t]

end Spec

open QueueManager Spec

variable {Q : Type} {α β : Type}

/-- The state without what is known about the heartbeats of workers. -/
def HState.forget (s : HState Q) : HState Q :=
  { s with live := fun _ => 0, timers := s.timers.map fun e => (e.1, 0) }

/-- The state in which a computation ends. -/
def endState : EStateM.Result Err (HState Q) α → HState Q
  | .ok _ s => s
  | .error _ s => s

/-- A job is given up in these messages. -/
def GivesUp (l : List Msg) : Prop := ∃ o ∈ l, GivenUp o

theorem GivesUp.mono {l l' : List Msg} (h : GivesUp l) (hs : l ⊆ l') : GivesUp l' := by
  obtain ⟨o, ho, hg⟩ := h
  exact ⟨o, hs ho, hg⟩

theorem forget_forget (s : HState Q) : s.forget.forget = s.forget := by
  simp [HState.forget]

/-- Started in states that differ in heartbeats at most, the computations give the same and lead to
    states that differ in heartbeats at most, unless one of them gives up a job that the other does not:
    the first only if `P.1`, the second only if `P.2`. -/
structure Unmoved (P : Prop × Prop) (f g : HM Q α) : Prop where
  left : ∀ s, s.outs ⊆ (endState (f s)).outs
  right : ∀ s, s.outs ⊆ (endState (g s)).outs
  rel : ∀ s t, s.forget = t.forget → (P.1 ∧ GivesUp (endState (f s)).outs) ∨
    (P.2 ∧ GivesUp (endState (g t)).outs) ∨ mapRes HState.forget (f s) = mapRes HState.forget (g t)

/-- The computation is not influenced by heartbeats. -/
abbrev Unmoved1 (P : Prop × Prop) (f : HM Q α) : Prop := Unmoved P f f

theorem Unmoved.pure (P : Prop × Prop) (a : α) : Unmoved1 (Q := Q) P (pure a) where
  left _ _ h := h
  right _ _ h := h
  rel _ _ h := .inr (.inr (congrArg (EStateM.Result.ok a) h))

theorem Unmoved.throw (P : Prop × Prop) (e : Err) : Unmoved1 (Q := Q) P (throw e : HM Q α) where
  left _ _ h := h
  right _ _ h := h
  rel _ _ h := .inr (.inr (congrArg (EStateM.Result.error e) h))

theorem Unmoved.liftE (P : Prop × Prop) (x : Except Exn α) : Unmoved1 (Q := Q) P (liftE x) := by
  cases x
  · exact Unmoved.throw _ _
  · exact Unmoved.pure _ _

theorem bind_outs {f : HM Q α} {k : α → HM Q β} (hk : ∀ a s, s.outs ⊆ (endState (k a s)).outs)
    (s : HState Q) : (endState (f s)).outs ⊆ (endState ((f >>= k) s)).outs := by
  simp only [Bind.bind, EStateM.bind]
  cases f s with
  | ok a s' => exact hk a s'
  | error e s' => exact fun _ h => h

theorem Unmoved.bind {P : Prop × Prop} {f g : HM Q α} {k l : α → HM Q β} (hf : Unmoved P f g)
    (hk : ∀ a, Unmoved P (k a) (l a)) : Unmoved P (f >>= k) (g >>= l) where
  left s _ h := bind_outs (fun a => (hk a).left) s (hf.left s h)
  right s _ h := bind_outs (fun a => (hk a).right) s (hf.right s h)
  rel s t h := by
    rcases hf.rel s t h with h1 | h1 | h1
    · exact .inl ⟨h1.1, h1.2.mono (bind_outs (fun a => (hk a).left) s)⟩
    · exact .inr (.inl ⟨h1.1, h1.2.mono (bind_outs (fun a => (hk a).right) t)⟩)
    · simp only [Bind.bind, EStateM.bind]
      cases hs : f s with
      | ok a s' =>
        rw [hs] at h1
        cases ht : g t with
        | ok a' t' =>
          rw [ht] at h1
          injection h1 with h2 h3
          subst h2
          exact (hk a).rel s' t' h3
        | error e t' => rw [ht] at h1; cases h1
      | error e s' =>
        rw [hs] at h1
        cases ht : g t with
        | ok a' t' => rw [ht] at h1; cases h1
        | error e' t' =>
          rw [ht] at h1
          injection h1 with h2 h3
          subst h2
          exact .inr (.inr (congrArg (EStateM.Result.error e) h3))

theorem Unmoved.get {P : Prop × Prop} {k l : HState Q → HM Q β} (hk : ∀ s, Unmoved P (k s) (l s))
    (hi : ∀ s, k s.forget = k s) (hi' : ∀ s, l s.forget = l s := by intro _; rfl) :
    Unmoved P (get >>= k) (get >>= l) where
  left s := (hk s).left s
  right s := (hk s).right s
  rel s t h := by
    change _ ∨ _ ∨ mapRes _ (k s s) = mapRes _ (l t t)
    have h1 := (hk s.forget).rel s t h
    rw [hi s] at h1
    rw [h, hi' t] at h1
    exact h1

theorem Unmoved.modify {P : Prop × Prop} {g : HState Q → HState Q}
    (h : ∀ s : HState Q, (g s.forget).forget = (g s).forget)
    (ho : ∀ s, s.outs ⊆ (g s).outs := by intro _ _ h; exact h) :
    Unmoved1 P (modify g : HM Q PUnit) where
  left := ho
  right := ho
  rel s t e := by
    refine .inr (.inr ?_)
    change EStateM.Result.ok _ (g s).forget = .ok _ (g t).forget
    rw [← h s, ← h t, e]

theorem Unmoved.respond (P : Prop × Prop) (k i : String) (d : List String) :
    Unmoved1 (Q := Q) P (respond k i d) :=
  Unmoved.modify (fun s => by simp [HState.forget]) (fun _ _ h => List.mem_append_left _ h)

theorem Unmoved.ite {P : Prop × Prop} {c : Prop} [Decidable c] {f g f' g' : HM Q α} (hf : Unmoved P f f')
    (hg : Unmoved P g g') : Unmoved P (if c then f else g) (if c then f' else g') := by
  split <;> assumption

/-- Which of two brokers may give up a job that the other does not give up. -/
abbrev apart (a b : HConfig) : Prop × Prop :=
  (a.maxFailures < b.maxFailures, b.maxFailures < a.maxFailures)

theorem Unmoved.checkFailureCount (a b : HConfig) (r : Req) (t : String) :
    Unmoved (Q := Q) (apart a b) (checkFailureCount a r t)
      (checkFailureCount b r t) := by
  unfold Broker.checkFailureCount
  refine Unmoved.get (fun s => ?_) (fun s => rfl)
  have hg : Unmoved1 (Q := Q) (apart a b) (do
      notifyFailed r.jobId (tooManyMsg (s.fc r.rid) t)
      notifyMonitor r.jobId "FAILED"
      return false) :=
    Unmoved.bind (Unmoved.respond _ _ _ _) fun _ => Unmoved.bind (Unmoved.respond _ _ _ _) fun _ =>
      Unmoved.pure _ _
  have hu : ∀ u : HState Q, GivesUp (endState ((do
      notifyFailed r.jobId (tooManyMsg (s.fc r.rid) t)
      notifyMonitor r.jobId "FAILED"
      return false : HM Q Bool) u)).outs := fun u =>
    ⟨⟨keyNotifier, "", ["type", "job-status", "id", r.jobId, "status", "FAILED", "message",
      tooManyMsg (s.fc r.rid) t]⟩, by
      change _ ∈ (u.outs ++ [_]) ++ [_]
      simp, rfl, r.jobId, natStr (szDec (s.fc r.rid)), t, rfl⟩
  by_cases ha : s.fc r.rid ≥ a.maxFailures
  · by_cases hb : s.fc r.rid ≥ b.maxFailures
    · simp only [if_pos ha, if_pos hb]; exact hg
    · simp only [if_pos ha, if_neg hb]
      exact ⟨hg.left, (Unmoved.pure (False, False) true).left, fun u _ _ => .inl ⟨by simp only [apart]; omega, hu u⟩⟩
  · by_cases hb : s.fc r.rid ≥ b.maxFailures
    · simp only [if_neg ha, if_pos hb]
      exact ⟨(Unmoved.pure (False, False) true).left, hg.left,
        fun _ v _ => .inr (.inl ⟨by simp only [apart]; omega, hu v⟩)⟩
    · simp only [if_neg ha, if_neg hb]; exact Unmoved.pure _ _

/-- A computation that first changes the state in a way that heartbeats do not influence. -/
theorem Unmoved.shift {P : Prop × Prop} {g : HState Q → HState Q} {k : HState Q → HM Q β}
    (hg : ∀ s : HState Q, (g s.forget).forget = (g s).forget) (ho : ∀ s, s.outs ⊆ (g s).outs)
    (hk : ∀ s, Unmoved1 P (k s)) (hi : ∀ s, k s.forget = k s) :
    Unmoved1 P (fun s => k s (g s) : HM Q β) where
  left s _ h := (hk s).left (g s) (ho s h)
  right s _ h := (hk s).left (g s) (ho s h)
  rel s t h := by
    have e : k s = k t := by rw [← hi s, ← hi t, h]
    have h1 := (hk s).rel (g s) (g t) (by rw [← hg s, ← hg t, h])
    change _ ∨ (P.2 ∧ GivesUp (endState (k t (g t))).outs) ∨ _ = mapRes _ (k t (g t))
    rw [← e]
    exact h1

variable [QueueManager Q]

theorem Unmoved.qAddWorker (P : Prop × Prop) (env : Env) (w : Worker) (cur : Option Req) :
    Unmoved1 (Q := Q) P (qAddWorker env w cur) := by
  unfold Broker.qAddWorker
  refine Unmoved.get (fun s => ?_) (fun s => rfl)
  refine Unmoved.bind (Unmoved.liftE _ _) (fun x => ?_)
  exact Unmoved.bind (Unmoved.modify (fun _ => by simp [HState.forget])) (fun _ => Unmoved.pure _ _)

theorem Unmoved.qAssign (P : Prop × Prop) (env : Env) (w : Worker) :
    Unmoved1 (Q := Q) P (qAssign env w) := by
  unfold Broker.qAssign
  refine Unmoved.get (fun s => ?_) (fun s => rfl)
  refine Unmoved.bind (Unmoved.liftE _ _) (fun x => ?_)
  exact Unmoved.bind (Unmoved.modify (fun _ => by simp [HState.forget])) (fun _ => Unmoved.pure _ _)

theorem Unmoved.qFinished (P : Prop × Prop) (env : Env) (w : Worker) :
    Unmoved1 (Q := Q) P (qFinished env w) := by
  unfold Broker.qFinished
  refine Unmoved.get (fun s => ?_) (fun s => rfl)
  refine Unmoved.bind (Unmoved.liftE _ _) (fun x => ?_)
  exact Unmoved.bind (Unmoved.modify (fun _ => by simp [HState.forget])) (fun _ => Unmoved.pure _ _)

theorem Unmoved.qTerminated (P : Prop × Prop) (w : Worker) :
    Unmoved1 (Q := Q) P (qTerminated w) := by
  unfold Broker.qTerminated
  refine Unmoved.get (fun s => ?_) (fun s => rfl)
  refine Unmoved.bind (Unmoved.liftE _ _) (fun x => ?_)
  exact Unmoved.bind (Unmoved.modify (fun _ => by simp [HState.forget])) (fun _ => Unmoved.pure _ _)

theorem Unmoved.qEnqueue (P : Prop × Prop) (env : Env) (r : Req) :
    Unmoved1 (Q := Q) P (qEnqueue env r) := by
  unfold Broker.qEnqueue
  refine Unmoved.get (fun s => ?_) (fun s => rfl)
  refine Unmoved.bind (Unmoved.liftE _ _) (fun x => ?_)
  exact Unmoved.bind (Unmoved.modify (fun _ => by simp [HState.forget])) (fun _ => Unmoved.pure _ _)

theorem Unmoved.qCurrent (P : Prop × Prop) (w : Worker) : Unmoved1 (Q := Q) P (qCurrent w) := by
  unfold Broker.qCurrent
  refine Unmoved.get (fun s => ?_) (fun s => rfl)
  exact Unmoved.bind (Unmoved.modify (fun _ => by simp [HState.forget])) (fun _ => Unmoved.pure _ _)

theorem Unmoved.qCancelled (P : Prop × Prop) (w : Worker) : Unmoved1 (Q := Q) P (qCancelled w) := by
  unfold Broker.qCancelled
  refine Unmoved.get (fun s => ?_) (fun s => rfl)
  exact Unmoved.bind (Unmoved.modify (fun _ => by simp [HState.forget])) (fun _ => Unmoved.pure _ _)

theorem Unmoved.reassign (P : Prop × Prop) (env : Env) (r : Req) :
    Unmoved1 (Q := Q) P (reassignRequest env r) := by
  unfold reassignRequest
  refine Unmoved.bind (Unmoved.qEnqueue _ _ _) (fun x => ?_)
  refine Unmoved.ite ?_ ?_
  · cases x.assignedTo with
    | none => exact Unmoved.pure _ _
    | some w => exact Unmoved.bind (Unmoved.respond _ _ _ _) (fun _ => Unmoved.pure _ _)
  · exact Unmoved.bind (Unmoved.respond _ _ _ _) (fun _ => Unmoved.pure _ _)

theorem Unmoved.sendIfSome (P : Prop × Prop) (w : Worker) (o : Option Req) :
    Unmoved1 (Q := Q) P (sendIfSome w o) := by
  cases o with
  | none => exact Unmoved.pure _ _
  | some r => exact Unmoved.respond _ _ _ _

theorem Unmoved.doneOk (P : Prop × Prop) (env : Env) (w : Worker) (j : String) :
    Unmoved1 (Q := Q) P (doneOk env w j) := by
  unfold Broker.doneOk
  refine Unmoved.bind (Unmoved.respond _ _ _ _) (fun _ => ?_)
  refine Unmoved.bind (Unmoved.qFinished _ _ _) (fun _ => ?_)
  exact Unmoved.bind (Unmoved.sendIfSome _ _ _) (fun _ => Unmoved.modify (fun _ => by simp [HState.forget]))

theorem Unmoved.bump (P : Prop × Prop) (r : Req) : Unmoved1 (Q := Q) P (bumpCount r) :=
  Unmoved.modify (fun _ => by simp [HState.forget])

theorem Unmoved.doneInternal (a b : HConfig) (env : Env) (w : Worker) (t : String) :
    Unmoved (Q := Q) (apart a b) (doneInternal a env w t) (doneInternal b env w t) := by
  unfold Broker.doneInternal
  refine Unmoved.bind (Unmoved.qCancelled _ _) (fun o => ?_)
  cases o with
  | none => exact Unmoved.throw _ _
  | some r =>
    refine Unmoved.bind (Unmoved.bump _ _) (fun _ => ?_)
    simp only
    split
    · exact Unmoved.bind (Unmoved.respond _ _ _ _) (fun _ => Unmoved.modify (fun _ => by simp [HState.forget]))
    · refine Unmoved.bind (Unmoved.checkFailureCount _ _ _ _) (fun c => ?_)
      cases c with
      | true =>
        exact Unmoved.bind (Unmoved.reassign _ _ _) (fun _ => Unmoved.modify (fun _ => by simp [HState.forget]))
      | false =>
        refine Unmoved.bind (Unmoved.qAssign _ _ _) (fun _ => ?_)
        exact Unmoved.bind (Unmoved.sendIfSome _ _ _) (fun _ => Unmoved.modify (fun _ => by simp [HState.forget]))

theorem Unmoved.doneFailed (P : Prop × Prop) (env : Env) (w : Worker) (j t : String) :
    Unmoved1 (Q := Q) P (doneFailed env w j t) := by
  unfold Broker.doneFailed
  refine Unmoved.bind (Unmoved.respond _ _ _ _) (fun _ => ?_)
  refine Unmoved.bind (Unmoved.qCancelled _ _) (fun o => ?_)
  cases o with
  | none => exact Unmoved.throw _ _
  | some r =>
    refine Unmoved.bind (Unmoved.bump _ _) (fun _ => ?_)
    refine Unmoved.bind (Unmoved.qAssign _ _ _) (fun _ => ?_)
    exact Unmoved.bind (Unmoved.sendIfSome _ _ _) (fun _ => Unmoved.modify (fun _ => by simp [HState.forget]))

theorem Unmoved.done (a b : HConfig) (env : Env) (i : String) (d : List String) :
    Unmoved (Q := Q) (apart a b) (processDone a env i d) (processDone b env i d) := by
  unfold processDone
  refine Unmoved.get (fun s => ?_) (fun s => rfl)
  have hc : ∀ w, Unmoved1 (Q := Q) (apart a b) (do let _ ← Broker.qCurrent w; Pure.pure ()) :=
    fun w => Unmoved.bind (Unmoved.qCurrent _ _) (fun _ => Unmoved.pure _ _)
  cases regFind i s.workers with
  | none => exact Unmoved.pure _ _
  | some w =>
    match d with
    | [] => exact Unmoved.pure _ _
    | [_] => exact Unmoved.pure _ _
    | [_, _] => exact Unmoved.pure _ _
    | _ :: j :: st :: rest =>
      simp only
      refine Unmoved.bind (Unmoved.qCurrent _ _) (fun o => ?_)
      cases o with
      | none => exact Unmoved.throw _ _
      | some r =>
        simp only
        refine Unmoved.ite (Unmoved.pure _ _) ?_
        refine Unmoved.ite (Unmoved.bind (Unmoved.doneOk _ _ _ _) (fun _ => hc _)) ?_
        refine Unmoved.ite ?_ (Unmoved.ite ?_ (hc _))
        · match rest with
          | [] => exact Unmoved.pure _ _
          | [t] => exact Unmoved.bind (Unmoved.doneInternal _ _ _ _ _) (fun _ => hc _)
          | _ :: _ :: _ => exact Unmoved.pure _ _
        · match rest with
          | [] => exact Unmoved.pure _ _
          | [t] => exact Unmoved.bind (Unmoved.doneFailed _ _ _ _ _) (fun _ => hc _)
          | _ :: _ :: _ => exact Unmoved.pure _ _

theorem Unmoved.ping (P : Prop × Prop) (i : String) : Unmoved1 (Q := Q) P (processPing i) := by
  unfold processPing
  refine Unmoved.get (fun s => ?_) (fun s => rfl)
  cases regFind i s.workers <;> exact Unmoved.respond _ _ _ _


theorem Unmoved.submit (P : Prop × Prop) (env : Env) (i j : String) (hs : Headers) (md : Metadata)
    (x : List String) : Unmoved1 (Q := Q) P (submit env i j hs md x) := by
  have h : ∀ n, Unmoved1 (Q := Q) P (do
      let res ← Broker.qEnqueue env (Req.full n hs md j x)
      if res.enqueued then do
        match res.assignedTo with
        | some w => sendRequest w (Req.full n hs md j x)
        | none => Pure.pure ()
        Broker.respond keyClients i ["accept"]
      else do
        Broker.respond keyClients i ["reject", rejectMessage hs]
        notifyMonitor j "FAILED") := by
    intro n
    refine Unmoved.bind (Unmoved.qEnqueue _ _ _) (fun r => ?_)
    refine Unmoved.ite ?_ ?_
    · cases r.assignedTo with
      | none => exact Unmoved.respond _ _ _ _
      | some w => exact Unmoved.bind (Unmoved.respond _ _ _ _) (fun _ => Unmoved.respond _ _ _ _)
    · exact Unmoved.bind (Unmoved.respond _ _ _ _) (fun _ => Unmoved.respond _ _ _ _)
  exact Unmoved.shift (g := fun s => { s with nextRid := s.nextRid + 1, fc := upd s.fc s.nextRid 0 })
    (fun _ => by simp [HState.forget]) (fun _ _ h => h) (fun s => h s.nextRid) (fun _ => rfl)

theorem Unmoved.client (P : Prop × Prop) (env : Env) (c i : String) (d : List String) :
    Unmoved1 (Q := Q) P (clientCommand env c i d) := by
  unfold clientCommand
  refine Unmoved.ite ?_ (Unmoved.ite ?_ (Unmoved.ite ?_ (Unmoved.ite ?_ (Unmoved.pure _ _))))
  · unfold processEval
    refine Unmoved.bind (Unmoved.respond _ _ _ _) (fun _ => ?_)
    cases d[1]? with
    | none => exact Unmoved.throw _ _
    | some j =>
      simp only
      split
      · exact Unmoved.throw _ _
      · exact Unmoved.pure _ _
      · refine Unmoved.get (fun s => ?_) (fun s => rfl)
        exact Unmoved.ite (Unmoved.respond _ _ _ _) (Unmoved.submit _ _ _ _ _ _ _)
  · unfold processStats
    exact Unmoved.get (fun s => Unmoved.respond _ _ _ _) (fun s => rfl)
  · exact Unmoved.bind (Unmoved.modify (fun _ => by simp [HState.forget])) (fun _ => Unmoved.respond _ _ _ _)
  · exact Unmoved.bind (Unmoved.modify (fun _ => by simp [HState.forget])) (fun _ => Unmoved.respond _ _ _ _)


/-! ## Workers -/

theorem WMap.zero_put (w : Worker) (v : Int) (m : WMap Int) :
    (m.put w v).map (fun e => (e.1, (0 : Int))) = WMap.put w 0 (m.map fun e => (e.1, (0 : Int))) := by
  induction m with
  | nil => rfl
  | cons e t ih =>
    obtain ⟨x, u⟩ := e
    simp only [List.map_cons]
    unfold WMap.put
    split
    · rfl
    · split
      · rfl
      · simp only [List.map_cons, ih]

theorem WMap.zero_emplace (w : Worker) (v : Int) (m : WMap Int) :
    (m.emplace w v).map (fun e => (e.1, (0 : Int))) =
      WMap.emplace w 0 (m.map fun e => (e.1, (0 : Int))) := by
  induction m with
  | nil => rfl
  | cons e t ih =>
    obtain ⟨x, u⟩ := e
    simp only [List.map_cons]
    unfold WMap.emplace
    split
    · rfl
    · split
      · rfl
      · simp only [List.map_cons, ih]

theorem forget_addrs (s : HState Q) : s.forget.addrs = s.addrs := by
  simp [HState.addrs, HState.forget]

theorem forget_workers {s t : HState Q} (h : s.forget = t.forget) : s.workers = t.workers :=
  congrArg (·.workers) h

theorem Unmoved.touch (P : Prop × Prop) (a b : HConfig) (i : String) :
    Unmoved (Q := Q) P (touchWorker a i) (touchWorker b i) := by
  have ho : ∀ (c : HConfig) (s : HState Q), s.outs ⊆ (endState (touchWorker c i s)).outs := by
    intro c s
    simp only [touchWorker, Bind.bind, EStateM.bind, MonadState.get, getThe, MonadStateOf.get,
      EStateM.get]
    cases regFind i s.workers <;> exact fun _ h => h
  refine ⟨ho a, ho b, fun s t h => .inr (.inr ?_)⟩
  simp only [touchWorker, Bind.bind, EStateM.bind, MonadState.get, getThe, MonadStateOf.get,
    EStateM.get]
  have hw : regFind i s.workers = regFind i t.workers := by rw [forget_workers h]
  rw [hw]
  cases regFind i t.workers with
  | none => exact congrArg (EStateM.Result.ok _) h
  | some w =>
    refine congrArg (EStateM.Result.ok _) ?_
    have e : ∀ (c : HConfig) (u : HState Q),
        HState.forget { u with live := upd u.live w.addr c.maxLiveness, timers := u.timers.put w 0 } =
          { u.forget with timers := u.forget.timers.put w 0 } := by
      intro c u; simp only [HState.forget, WMap.zero_put]
    rw [e, e, h]

/-- What registration does to the state before the queue manager is told. -/
def regFirst (env : Env) (i g : String) (hs : Headers) (x : List String) (s : HState Q) : HState Q :=
  match Worker.create (env.alloc s.allocs s.addrs) i g hs (initExtra x "" none).1 with
  | .error _ => s
  | .ok w => { s with
      live := upd s.live (env.alloc s.allocs s.addrs) 0, allocs := s.allocs + 1,
      fc := upd s.fc s.nextRid 0, nextRid := s.nextRid + 1, workers := s.workers ++ [w] }

/-- Registration from the call of the queue manager on. -/
def regThen (env : Env) (i g : String) (hs : Headers) (x : List String) (s : HState Q) : HM Q Unit :=
  match Worker.create (env.alloc s.allocs s.addrs) i g hs (initExtra x "" none).1 with
  | .error e => throw (Err.exn e)
  | .ok w => do
    let req ← Broker.qAddWorker env w
      (Option.map (Req.incomplete s.nextRid) (initExtra x "" none).2)
    match req with
    | some r => sendRequest w r
    | none => Pure.pure ()
    modify fun s => { s with timers := s.timers.emplace w 0 }

theorem register_eq (env : Env) (i g : String) (hs : Headers) (x : List String) :
    (registerWorker env i g hs x : HM Q Unit) =
      fun s => regThen env i g hs x s (regFirst env i g hs x s) := by
  funext s
  unfold registerWorker regThen regFirst
  simp only [Bind.bind, EStateM.bind, MonadState.get, getThe, MonadStateOf.get, EStateM.get]
  cases Worker.create (env.alloc s.allocs s.addrs) i g hs (initExtra x "" none).1 with
  | error e => rfl
  | ok w => rfl

theorem Unmoved.register (P : Prop × Prop) (env : Env) (i g : String) (hs : Headers) (x : List String) :
    Unmoved1 (Q := Q) P (registerWorker env i g hs x) := by
  rw [register_eq]
  refine Unmoved.shift (fun s => ?_) (fun s => ?_) (fun s => ?_) (fun s => ?_)
  · simp only [regFirst, forget_addrs, show s.forget.allocs = s.allocs from rfl]
    split <;> simp [HState.forget]
  · unfold regFirst
    split <;> exact fun _ h => h
  · unfold regThen
    split
    · exact Unmoved.throw _ _
    · refine Unmoved.bind (Unmoved.qAddWorker _ _ _ _) (fun r => ?_)
      have hm : ∀ w, Unmoved1 (Q := Q) P
          (_root_.modify fun s => { s with timers := s.timers.emplace w 0 }) := fun w =>
        Unmoved.modify (fun s => by simp [HState.forget, WMap.zero_emplace, Function.comp_def])
      cases r with
      | none => exact hm _
      | some r => exact Unmoved.bind (Unmoved.respond _ _ _ _) (fun _ => hm _)
  · simp only [regThen, forget_addrs]
    rfl

theorem Unmoved.init (P : Prop × Prop) (env : Env) (i : String) (d : List String) :
    Unmoved1 (Q := Q) P (processInit env i d) := by
  unfold processInit
  match d with
  | [] => exact Unmoved.pure _ _
  | [_] => exact Unmoved.pure _ _
  | _ :: g :: rest =>
    simp only
    refine Unmoved.get (fun s => ?_) (fun s => rfl)
    cases regFind i s.workers with
    | none => exact Unmoved.register _ _ _ _ _ _
    | some w =>
      refine Unmoved.ite (Unmoved.pure _ _) ?_
      exact Unmoved.bind (Unmoved.respond _ _ _ _) (fun _ => Unmoved.register _ _ _ _ _ _)

/-! ## Ticks -/

theorem Unmoved.countIdle (P : Prop × Prop) : ∀ ws : List Worker, Unmoved1 (Q := Q) P (countIdle ws)
  | [] => Unmoved.pure _ _
  | w :: ws => by
    unfold Broker.countIdle
    refine Unmoved.bind (Unmoved.qCurrent _ _) (fun _ => ?_)
    exact Unmoved.bind (Unmoved.countIdle P ws) (fun _ => Unmoved.pure _ _)

theorem Unmoved.updateGauges (P : Prop × Prop) : Unmoved1 (Q := Q) P updateGauges := by
  unfold Broker.updateGauges
  refine Unmoved.get (fun s => ?_) (fun s => rfl)
  exact Unmoved.bind (Unmoved.countIdle _ _) (fun _ => Unmoved.modify (fun _ => by simp [HState.forget]))

theorem tick_forget (cfg : HConfig) (time : Int) : ∀ (ws : List Worker) (s : HState Q),
    ∃ xs s1, tickWorkers cfg time ws s = .ok xs s1 ∧
      s1.forget = { s.forget with timers := ws.foldl (fun m w => m.put w 0) s.forget.timers }
  | [], s => ⟨[], s, rfl, rfl⟩
  | w :: ws, s => by
    have h1 : ∃ x s0, tickWorker cfg time w s = .ok x s0 ∧
        s0.forget = { s.forget with timers := s.forget.timers.put w 0 } := by
      simp only [tickWorker, Bind.bind, EStateM.bind, MonadState.get, getThe, MonadStateOf.get,
        EStateM.get]
      split
      · exact ⟨_, _, rfl, by simp only [HState.forget, WMap.zero_put]⟩
      · exact ⟨_, _, rfl, by simp only [HState.forget, WMap.zero_put]⟩
    obtain ⟨x, s0, h0, e0⟩ := h1
    obtain ⟨xs, s1, h1, e1⟩ := tick_forget cfg time ws s0
    refine ⟨if x then w :: xs else xs, s1, ?_, ?_⟩
    · simp only [tickWorkers, Bind.bind, EStateM.bind, h0, h1]
      rfl
    · rw [e1, e0]; rfl

/-- The computation does not change the registry. -/
def SameReg (f : HM Q α) : Prop := ∀ s, (endState (f s)).workers = s.workers

theorem SameReg.bind {f : HM Q α} {k : α → HM Q β} (hf : SameReg f) (hk : ∀ a, SameReg (k a)) :
    SameReg (f >>= k) := by
  intro s
  simp only [Bind.bind, EStateM.bind]
  have h := hf s
  cases hs : f s with
  | ok a s' => rw [hs] at h; exact (hk a s').trans h
  | error e s' => rw [hs] at h; exact h

theorem SameReg.pure (a : α) : SameReg (Q := Q) (pure a) := fun _ => rfl

theorem SameReg.modify {g : HState Q → HState Q}
    (h : ∀ s, (g s).workers = s.workers := by intro _; rfl) :
    SameReg (modify g : HM Q PUnit) := h

theorem SameReg.respond (k i : String) (d : List String) : SameReg (Q := Q) (respond k i d) :=
  SameReg.modify

theorem SameReg.get {k : HState Q → HM Q β} (hk : ∀ s, SameReg (k s)) : SameReg (get >>= k) :=
  fun s => hk s s

theorem SameReg.liftE (x : Except Exn α) : SameReg (Q := Q) (liftE x) := by
  cases x <;> exact fun _ => rfl

theorem SameReg.ite {c : Prop} [Decidable c] {f g : HM Q α} (hf : SameReg f) (hg : SameReg g) :
    SameReg (if c then f else g) := by
  split <;> assumption

theorem SameReg.qTerminated (w : Worker) : SameReg (Q := Q) (qTerminated w) := by
  unfold Broker.qTerminated
  refine SameReg.get fun s => SameReg.bind (SameReg.liftE _) fun x => ?_
  exact SameReg.bind SameReg.modify fun _ => SameReg.pure _

theorem SameReg.qEnqueue (env : Env) (r : Req) : SameReg (Q := Q) (qEnqueue env r) := by
  unfold Broker.qEnqueue
  refine SameReg.get fun s => SameReg.bind (SameReg.liftE _) fun x => ?_
  exact SameReg.bind SameReg.modify fun _ => SameReg.pure _

theorem SameReg.qCurrent (w : Worker) : SameReg (Q := Q) (qCurrent w) := by
  unfold Broker.qCurrent
  exact SameReg.get fun s => SameReg.bind SameReg.modify fun _ => SameReg.pure _

theorem SameReg.reassign (env : Env) (r : Req) : SameReg (Q := Q) (reassignRequest env r) := by
  unfold reassignRequest
  refine SameReg.bind (SameReg.qEnqueue _ _) fun x => SameReg.ite ?_ ?_
  · cases x.assignedTo with
    | none => exact SameReg.pure _
    | some w => exact SameReg.bind (SameReg.respond _ _ _) fun _ => SameReg.pure _
  · exact SameReg.bind (SameReg.respond _ _ _) fun _ => SameReg.pure _

theorem SameReg.check (cfg : HConfig) (r : Req) (t : String) :
    SameReg (Q := Q) (checkFailureCount cfg r t) := by
  unfold checkFailureCount
  refine SameReg.get fun s => SameReg.ite ?_ (SameReg.pure _)
  exact SameReg.bind (SameReg.respond _ _ _) fun _ => SameReg.bind (SameReg.respond _ _ _) fun _ =>
    SameReg.pure _

theorem SameReg.settle (cfg : HConfig) (env : Env) :
    ∀ rs : List Req, SameReg (Q := Q) (settleRequests cfg env rs)
  | [] => SameReg.pure _
  | r :: rs => by
    unfold settleRequests
    have ih := SameReg.settle cfg env rs
    refine SameReg.ite ?_ ?_
    · exact SameReg.bind (SameReg.respond _ _ _) fun _ => SameReg.bind (SameReg.respond _ _ _) fun _ => ih
    · refine SameReg.bind (SameReg.check _ _ _) fun c => SameReg.ite ?_ ih
      refine SameReg.bind (SameReg.reassign _ _) fun c => SameReg.ite ?_ ?_
      · exact SameReg.bind (SameReg.respond _ _ _) fun _ => ih
      · exact SameReg.bind ih fun _ => SameReg.pure _

theorem SameReg.rejectAll (d : String) : ∀ rs : List Req, SameReg (Q := Q) (rejectAll d rs)
  | [] => SameReg.pure _
  | _ :: rs => SameReg.bind (SameReg.respond _ _ _) fun _ => SameReg.rejectAll d rs

/-- `expireWorker` after the worker has been taken from the registry. -/
theorem expire_eq (cfg : HConfig) (env : Env) (w : Worker) : ∃ k : HM Q Unit, SameReg k ∧
    ∀ s, expireWorker cfg env w s = k { s with workers := regRemove w s.workers } := by
  refine ⟨do
    match ← Broker.qCurrent w with
    | some r => bumpCount r
    | none => Pure.pure ()
    let requests ← Broker.qTerminated w
    let unassigned ← settleRequests cfg env requests
    Broker.rejectAll ("Worker " ++ w.getDescription ++ " dieded") unassigned, ?_, fun s => rfl⟩
  refine SameReg.bind (SameReg.qCurrent _) fun o => ?_
  have h : SameReg (Q := Q) (do
    let requests ← Broker.qTerminated w
    let unassigned ← settleRequests cfg env requests
    Broker.rejectAll ("Worker " ++ w.getDescription ++ " dieded") unassigned) :=
    SameReg.bind (SameReg.qTerminated _) fun _ => SameReg.bind (SameReg.settle _ _ _) fun _ =>
      SameReg.rejectAll _ _
  cases o with
  | none => exact h
  | some r => exact SameReg.bind SameReg.modify fun _ => h

theorem SameReg.countIdle : ∀ ws : List Worker, SameReg (Q := Q) (countIdle ws)
  | [] => SameReg.pure _
  | _ :: ws => SameReg.bind (SameReg.qCurrent _) fun _ => SameReg.bind (SameReg.countIdle ws) fun _ =>
      SameReg.pure _

theorem SameReg.updateGauges : SameReg (Q := Q) updateGauges :=
  SameReg.get fun _ => SameReg.bind (SameReg.countIdle _) fun _ => SameReg.modify

theorem expires_sub (cfg : HConfig) (env : Env) : ∀ (xs : List Worker) (s : HState Q),
    (endState (expireWorkers cfg env xs s)).workers ⊆ s.workers
  | [], _ => fun _ h => h
  | x :: xs, s => by
    obtain ⟨k, hk, he⟩ := expire_eq (Q := Q) cfg env x
    have h := hk { s with workers := regRemove x s.workers }
    unfold expireWorkers
    simp only [Bind.bind, EStateM.bind, he s]
    cases hs : k { s with workers := regRemove x s.workers } with
    | ok a s' =>
      rw [hs] at h
      exact fun _ hx => (regRemove_sublist _ _).subset (h ▸ expires_sub cfg env xs s' hx)
    | error e s' =>
      rw [hs] at h
      exact fun _ hx => (regRemove_sublist _ _).subset (h ▸ hx)

/-- Expiring workers and updating the gauges registers nobody. -/
theorem finish_sub (cfg : HConfig) (env : Env) (xs : List Worker) (s : HState Q) :
    (endState ((do expireWorkers cfg env xs; Broker.updateGauges : HM Q Unit) s)).workers ⊆
      s.workers := by
  have h := expires_sub cfg env xs s
  simp only [Bind.bind, EStateM.bind]
  cases hs : expireWorkers cfg env xs s with
  | ok a s' => rw [hs] at h; exact fun _ hx => h (SameReg.updateGauges s' ▸ hx)
  | error e s' => rw [hs] at h; exact h

/-- Who is expired is not in the registry afterwards. -/
theorem expires_loses {cfg : HConfig} {env : Env} {x : Worker} {xs : List Worker} {s : HState Q}
    (hn : (s.workers.map (·.addr)).Nodup) :
    x ∉ (endState ((do expireWorkers cfg env (x :: xs); Broker.updateGauges : HM Q Unit) s)).workers := by
  obtain ⟨k, hk, he⟩ := expire_eq (Q := Q) cfg env x
  have h : (endState (k { s with workers := regRemove x s.workers })).workers =
      regRemove x s.workers := hk _
  have hx : x ∉ regRemove x s.workers := fun hx => ((mem_regRemove_of_nodup hn).1 hx).2 rfl
  unfold expireWorkers
  cases hs : k { s with workers := regRemove x s.workers } with
  | ok a s' =>
    rw [hs] at h
    have h' : s'.workers = regRemove x s.workers := h
    have e : (do (do expireWorker cfg env x; expireWorkers cfg env xs); Broker.updateGauges : HM Q Unit) s
        = (do expireWorkers cfg env xs; Broker.updateGauges : HM Q Unit) s' := by
      simp only [Bind.bind, EStateM.bind, he s, hs]
    rw [e]
    exact fun hc => hx (h' ▸ finish_sub cfg env xs s' hc)
  | error e s' =>
    rw [hs] at h
    have h' : s'.workers = regRemove x s.workers := h
    simp only [Bind.bind, EStateM.bind, he s, hs]
    exact fun hc => hx (h' ▸ hc)

theorem timer_eq {cfg : HConfig} {env : Env} {f : String} {rest : List String} {time : Int}
    {s s1 : HState Q} {xs : List Worker} (hf : stoll f = .ok time)
    (h : tickWorkers cfg time s.workers s = .ok xs s1) :
    processTimer cfg env (f :: rest) s =
      (do expireWorkers cfg env xs; Broker.updateGauges : HM Q Unit) s1 := by
  simp only [processTimer, hf, Broker.liftE, Bind.bind, EStateM.bind, Pure.pure, EStateM.pure,
    MonadState.get, getThe, MonadStateOf.get, EStateM.get, h]

/-- Results that are the same up to heartbeats, unless a job is given up. -/
def Concur (P : Prop × Prop) (r r' : EStateM.Result Err (HState Q) α) : Prop :=
  (P.1 ∧ GivesUp (endState r).outs) ∨ (P.2 ∧ GivesUp (endState r').outs) ∨
    mapRes HState.forget r = mapRes HState.forget r'

theorem timer_none (P : Prop × Prop) {a b : HConfig} {env : Env} {f : String} {rest : List String}
    {time : Int} {s t s1 t1 : HState Q} (hf : stoll f = .ok time) (h : s.forget = t.forget)
    (hs : tickWorkers a time s.workers s = .ok [] s1)
    (ht : tickWorkers b time t.workers t = .ok [] t1) :
    Concur P (processTimer a env (f :: rest) s) (processTimer b env (f :: rest) t) := by
  rw [timer_eq hf hs, timer_eq hf ht]
  obtain ⟨xs, s2, e1, f1⟩ := tick_forget a time s.workers s
  obtain ⟨ys, t2, e2, f2⟩ := tick_forget b time t.workers t
  rw [hs] at e1
  rw [ht] at e2
  cases e1
  cases e2
  have hu : s1.forget = t1.forget := by rw [f1, f2, h, forget_workers h]
  exact (Unmoved.updateGauges P).rel s1 t1 hu

section
variable [LawfulQM Q]

/-- A tick that takes nobody from the registry expires nobody. -/
theorem tick_none {cfg : HConfig} {env : Env} {f : String} {rest : List String} {time : Int}
    {s : HState Q} (hn : (s.workers.map (·.addr)).Nodup) (hf : stoll f = .ok time)
    (hk : ∀ w ∈ s.workers, w ∈ (endState (processTimer cfg env (f :: rest) s)).workers) :
    ∃ s1, tickWorkers cfg time s.workers s = .ok [] s1 := by
  obtain ⟨xs, s1, e1, f1⟩ := tick_forget cfg time s.workers s
  obtain ⟨hfr, hsub, _⟩ := wp_ok (wp_tickWorkers (E := fun _ _ => True) hn) e1
  cases xs with
  | nil => exact ⟨s1, e1⟩
  | cons x xs =>
    exfalso
    have hw : s1.workers = s.workers := by rw [hfr]
    have := hk x (hsub.subset (by simp))
    rw [timer_eq hf e1] at this
    exact expires_loses (by rw [hw]; exact hn) this

/-- With two configurations that take nobody from the registry a message has the same effect. -/
theorem request_alike {a b : HConfig} {env : Env} {m : Msg} {s t : HState Q}
    (h : s.forget = t.forget)
    (ht : m.key = keyTimer → ∀ f rest time, m.data = f :: rest → stoll f = .ok time →
      (∃ s1, tickWorkers a time s.workers s = .ok [] s1) ∧
      ∃ t1, tickWorkers b time t.workers t = .ok [] t1) :
    Concur (apart a b) (onRequest a env m s) (onRequest b env m t) := by
  unfold onRequest
  by_cases h1 : m.key = keyWorkers
  · simp only [if_pos h1]
    refine (Unmoved.bind (Unmoved.touch _ a b m.identity) fun _ => ?_).rel s t h
    cases m.data with
    | nil => exact Unmoved.throw _ _
    | cons c rest =>
      simp only [workerCommand]
      exact Unmoved.ite (Unmoved.init _ _ _ _) (Unmoved.ite (Unmoved.done _ _ _ _ _)
        (Unmoved.ite (Unmoved.ping _ _) (Unmoved.ite (Unmoved.respond _ _ _ _) (Unmoved.pure _ _))))
  · simp only [if_neg h1]
    by_cases h2 : m.key = keyClients
    · simp only [if_pos h2]
      cases m.data with
      | nil => exact (Unmoved.throw _ _).rel s t h
      | cons c rest => exact (Unmoved.client _ _ _ _ _).rel s t h
    · simp only [if_neg h2]
      by_cases h3 : m.key = keyTimer
      · simp only [if_pos h3]
        cases hd : m.data with
        | nil => exact (Unmoved.throw _ _).rel s t h
        | cons f rest =>
          cases hf : stoll f with
          | error e =>
            refine .inr (.inr ?_)
            simp only [processTimer, hf, Broker.liftE, Bind.bind, EStateM.bind]
            exact congrArg (EStateM.Result.error _) h
          | ok time =>
            obtain ⟨⟨s1, e1⟩, t1, e2⟩ := ht h3 f rest time hd hf
            exact timer_none _ hf h e1 e2
      · simp only [if_neg h3]
        exact (Unmoved.pure _ _).rel s t h

end

end Broker
