import Verif.Model.Multi
import Verif.Model.Single
import Verif.Proof.Frames

/-!
# The two queue managers side by side, with at most one worker

A relational program logic for the handler with the multi-queue manager on one side and the
single-queue manager on the other.  The states agree in everything but the queue manager and the
messages without frames; the queue managers know the same worker (or none), it has the same current
job and the same jobs wait in the same order.
-/

namespace Broker

/-- Messages with frames, or not addressed to workers. -/
def solid (o : Msg) : Bool := !(o.key == "workers" && o.data == [])

namespace OneWorker

/-- How outputs are compared: exactly, or up to messages without frames for workers. -/
def OutsR (b : Bool) (o o' : List Msg) : Prop :=
  if b then o' = o else o'.filter solid = o.filter solid

theorem OutsR.refl (b : Bool) (o : List Msg) : OutsR b o o := by cases b <;> simp [OutsR]

theorem OutsR.append {b : Bool} {o o' : List Msg} (h : OutsR b o o') (x : List Msg) :
    OutsR b (o ++ x) (o' ++ x) := by
  cases b <;> simp_all [OutsR]

/-- Sorting leaves jobs alone that are in the order of the clock readings. -/
def Keeps (env : Env) : Prop :=
  ∀ es : List (Req × Nat), es.Pairwise (fun a b => a.2 < b.2) →
    env.srt.sort (es.map fun e => (e.1, env.clock e.2)) = es.map fun e => (e.1, env.clock e.2)

/-- Related queue managers; `n` clock readings have been made. -/
def QR (env : Env) (n : Nat) : Option (Worker × Option Req) → Multi → Single → Prop
  | none, q, q' => q = ⟨[], [], []⟩ ∧ q' = ⟨[], [], []⟩
  | some (w, c), q, q' => ∃ es : List (Req × Nat),
    q = ⟨[(w, es.map (·.1))], [(w, c)], [w]⟩ ∧
    q' = ⟨es.map fun e => (e.1, env.clock e.2), [(w, c)], [w]⟩ ∧
    es.Pairwise (fun a b => a.2 < b.2) ∧ (∀ e ∈ es, e.2 < n) ∧
    ∀ e ∈ es, w.checkHeaders e.1.headers = .ok true

structure HR (env : Env) (b : Bool) (ws : List Worker) (i : Option (Worker × Option Req))
    (s : HState Multi) (s' : HState Single) : Prop where
  workers : s.workers = ws
  workers' : s'.workers = ws
  timers : s'.timers = s.timers
  live : s'.live = s.live
  fc : s'.fc = s.fc
  nextRid : s'.nextRid = s.nextRid
  allocs : s'.allocs = s.allocs
  clockReads : s'.clockReads = s.clockReads
  stats : s'.stats = s.stats
  frozen : s'.frozen = s.frozen
  outs : OutsR b s.outs s'.outs
  queue : QR env s.clockReads i s.queue s'.queue

/-- Related results. -/
inductive Res (b : Bool) {α : Type} (R : α → HState Multi → HState Single → Prop) :
    EStateM.Result Err (HState Multi) α → EStateM.Result Err (HState Single) α → Prop
  | ok {a : α} {t : HState Multi} {t' : HState Single} (h : R a t t') : Res b R (.ok a t) (.ok a t')
  | error {e : Err} {t : HState Multi} {t' : HState Single} (h : OutsR b t.outs t'.outs) :
    Res b R (.error e t) (.error e t')

/-- Both computations, started in related states, end in related results. -/
def RH (b : Bool) {α : Type} (P : HState Multi → HState Single → Prop) (x : HM Multi α)
    (y : HM Single α) (R : α → HState Multi → HState Single → Prop) : Prop :=
  ∀ s s', P s s' → Res b R (x s) (y s')

variable {b : Bool} {α β : Type} {P P' : HState Multi → HState Single → Prop}

theorem RH.pure {a : α} {R : α → HState Multi → HState Single → Prop}
    (h : ∀ s s', P s s' → R a s s') : RH b P (Pure.pure a) (Pure.pure a) R :=
  fun s s' hp => .ok (h s s' hp)

theorem RH.bind {x : HM Multi α} {y : HM Single α} {f : α → HM Multi β} {g : α → HM Single β}
    {R : α → HState Multi → HState Single → Prop} {S : β → HState Multi → HState Single → Prop}
    (hx : RH b P x y R) (hf : ∀ a, RH b (R a) (f a) (g a) S) :
    RH b P (x >>= f) (y >>= g) S := by
  intro s s' hp
  have h := hx s s' hp
  show Res b S (EStateM.bind x f s) (EStateM.bind y g s')
  unfold EStateM.bind
  cases hxs : x s with
  | ok a t =>
    cases hys : y s' with
    | ok a' t' => rw [hxs, hys] at h; cases h with | ok h => exact hf _ _ _ h
    | error e t' => rw [hxs, hys] at h; cases h
  | error e t =>
    cases hys : y s' with
    | ok a' t' => rw [hxs, hys] at h; cases h
    | error e' t' => rw [hxs, hys] at h; cases h with | error h => exact .error h

theorem RH.get {f : HState Multi → HM Multi β} {g : HState Single → HM Single β}
    {S : β → HState Multi → HState Single → Prop}
    (h : ∀ s s', P s s' → RH b (fun t t' => t = s ∧ t' = s') (f s) (g s') S) :
    RH b P (MonadState.get >>= f) (MonadState.get >>= g) S :=
  fun s s' hp => h s s' hp s s' ⟨rfl, rfl⟩

theorem RH.conseq {x : HM Multi α} {y : HM Single α}
    {R R' : α → HState Multi → HState Single → Prop} (h : RH b P x y R)
    (hp : ∀ s s', P' s s' → P s s') (hr : ∀ a s s', R a s s' → R' a s s') :
    RH b P' x y R' := by
  intro s s' h1
  have h2 := h s s' (hp s s' h1)
  generalize x s = r1 at h2 ⊢
  generalize y s' = r2 at h2 ⊢
  cases h2 with
  | ok h => exact .ok (hr _ _ _ h)
  | error h => exact .error h

/-- From exact knowledge of the states back to the relation. -/
theorem RH.of {x : HM Multi α} {y : HM Single α} {R : α → HState Multi → HState Single → Prop}
    {s : HState Multi} {s' : HState Single} (h : RH b P x y R) (hp : P s s') :
    RH b (fun t t' => t = s ∧ t' = s') x y R :=
  h.conseq (fun _ _ ⟨h1, h2⟩ => by rw [h1, h2]; exact hp) (fun _ _ _ h => h)

theorem RH.throw {e : Err} {R : α → HState Multi → HState Single → Prop}
    (h : ∀ s s', P s s' → OutsR b s.outs s'.outs) :
    RH b P (MonadExcept.throw e) (MonadExcept.throw e) R :=
  fun s s' hp => .error (h s s' hp)

variable {env : Env} {ws : List Worker} {i : Option (Worker × Option Req)}

/-! ## Operations that do not touch the queue manager -/

theorem respond_rh (k d : String) (x : List String) :
    RH b (HR env b ws i) (respond k d x) (respond k d x) (fun _ => HR env b ws i) :=
  fun _ _ h => .ok { h with outs := h.outs.append _ }

theorem sendRequest_rh (w : Worker) (r : Req) :
    RH b (HR env b ws i) (sendRequest w r) (sendRequest w r) (fun _ => HR env b ws i) :=
  respond_rh _ _ _

theorem sendIfSome_rh (w : Worker) (r : Option Req) :
    RH b (HR env b ws i) (sendIfSome w r) (sendIfSome w r) (fun _ => HR env b ws i) := by
  cases r with
  | none => exact RH.pure fun _ _ h => h
  | some r => exact sendRequest_rh w r

theorem bumpCount_rh (r : Req) :
    RH b (HR env b ws i) (bumpCount r) (bumpCount r) (fun _ => HR env b ws i) :=
  fun _ _ h => .ok { h with fc := by show upd _ _ _ = upd _ _ _; rw [h.fc] }

theorem countFailed_rh :
    RH b (HR env b ws i) countFailed countFailed (fun _ => HR env b ws i) :=
  fun _ _ h => .ok { h with stats := by dsimp only; rw [h.stats] }

theorem countEvaluated_rh :
    RH b (HR env b ws i) countEvaluated countEvaluated (fun _ => HR env b ws i) :=
  fun _ _ h => .ok { h with stats := by dsimp only; rw [h.stats] }

theorem liftE_rh (x : Except Exn α) :
    RH b (HR env b ws i) (liftE x) (liftE x) (fun _ => HR env b ws i) := by
  cases x with
  | ok a => exact RH.pure fun _ _ h => h
  | error e => exact RH.throw fun _ _ h => h.outs

theorem checkFailureCount_rh (cfg : HConfig) (r : Req) (m : String) :
    RH b (HR env b ws i) (checkFailureCount cfg r m) (checkFailureCount cfg r m)
      (fun _ => HR env b ws i) := by
  unfold checkFailureCount
  refine RH.get fun s s' h => RH.of ?_ h
  rw [h.fc]
  split
  · exact (respond_rh _ _ _).bind fun _ => (respond_rh _ _ _).bind fun _ => RH.pure fun _ _ h => h
  · exact RH.pure fun _ _ h => h

/-! ## Queue operations -/

theorem qCurrent_rh (w : Worker) (c : Option Req) :
    RH b (HR env b ws (some (w, c))) (qCurrent w) (qCurrent w)
      (fun r t t' => r = c ∧ HR env b ws (some (w, c)) t t') := by
  intro s s' h
  obtain ⟨es, hq, hq', h1, h2, h3⟩ := h.queue
  have e1 : QueueManager.currentRequest s.queue w = (c, s.queue) := by
    rw [hq]; show Multi.currentRequest _ _ = _
    simp [Multi.currentRequest, WMap.getD, WMap.find, WMap.emplace]
  have e2 : QueueManager.currentRequest s'.queue w = (c, s'.queue) := by
    rw [hq']; show Single.currentRequest _ _ = _
    simp [Single.currentRequest, WMap.getD, WMap.find, WMap.emplace]
  have e3 : qCurrent w s = .ok c s := by
    show EStateM.Result.ok (QueueManager.currentRequest s.queue w).1
      { s with queue := (QueueManager.currentRequest s.queue w).2 } = _
    rw [e1]
  have e4 : qCurrent w s' = .ok c s' := by
    show EStateM.Result.ok (QueueManager.currentRequest s'.queue w).1
      { s' with queue := (QueueManager.currentRequest s'.queue w).2 } = _
    rw [e2]
  rw [e3, e4]
  exact .ok ⟨rfl, h⟩

theorem qCancelled_rh (w : Worker) (c : Option Req) :
    RH b (HR env b ws (some (w, c))) (qCancelled w) (qCancelled w)
      (fun r t t' => r = c ∧ HR env b ws (some (w, none)) t t') := by
  intro s s' h
  obtain ⟨es, hq, hq', h1, h2, h3⟩ := h.queue
  have e1 : QueueManager.workerCancelled s.queue w =
      (c, ⟨[(w, es.map (·.1))], [(w, none)], [w]⟩) := by
    rw [hq]; show Multi.workerCancelled _ _ = _
    simp [Multi.workerCancelled, WMap.getD, WMap.find, WMap.put]
  have e2 : QueueManager.workerCancelled s'.queue w =
      (c, ⟨es.map fun e => (e.1, env.clock e.2), [(w, none)], [w]⟩) := by
    rw [hq']; show Single.workerCancelled _ _ = _
    simp [Single.workerCancelled, WMap.getD, WMap.find, WMap.put]
  have e3 : qCancelled w s = .ok c { s with queue := ⟨[(w, es.map (·.1))], [(w, none)], [w]⟩ } := by
    show EStateM.Result.ok (QueueManager.workerCancelled s.queue w).1
      { s with queue := (QueueManager.workerCancelled s.queue w).2 } = _
    rw [e1]
  have e4 : qCancelled w s' = .ok c { s' with
      queue := ⟨es.map fun e => (e.1, env.clock e.2), [(w, none)], [w]⟩ } := by
    show EStateM.Result.ok (QueueManager.workerCancelled s'.queue w).1
      { s' with queue := (QueueManager.workerCancelled s'.queue w).2 } = _
    rw [e2]
  rw [e3, e4]
  exact .ok ⟨rfl, { h with queue := ⟨es, rfl, rfl, h1, h2, h3⟩ }⟩

/-- Taking the next job, on the single-queue side. -/
theorem single_assign (hk : Keeps env) {w : Worker} {c : Option Req} {es : List (Req × Nat)}
    (h1 : es.Pairwise fun a b => a.2 < b.2)
    (h3 : ∀ e ∈ es, w.checkHeaders e.1.headers = .ok true) :
    Single.assignRequest env.srt ⟨es.map fun e => (e.1, env.clock e.2), [(w, c)], [w]⟩ w =
      .ok (es.head?.map (·.1),
        ⟨es.tail.map fun e => (e.1, env.clock e.2), [(w, es.head?.map (·.1))], [w]⟩) := by
  unfold Single.assignRequest
  rw [hk es h1]
  cases es with
  | nil => simp [Single.takeFirst, WMap.put, Pure.pure, Bind.bind, Except.pure, Except.bind]
  | cons e t =>
    have := h3 e (by simp)
    simp [Single.takeFirst, WMap.put, Pure.pure, Bind.bind, Except.pure, Except.bind, this]

theorem multi_assign (w : Worker) (es : List (Req × Nat)) :
    Multi.assignRequest ⟨[(w, es.map (·.1))], [(w, none)], [w]⟩ w =
      (es.head?.map (·.1), ⟨[(w, es.tail.map (·.1))], [(w, es.head?.map (·.1))], [w]⟩) := by
  cases es with
  | nil => simp [Multi.assignRequest, WMap.getD, WMap.find, WMap.emplace]
  | cons e t => simp [Multi.assignRequest, WMap.getD, WMap.find, WMap.put]

theorem tail_qr {n : Nat} {w : Worker} {c : Option Req} {es : List (Req × Nat)}
    (h1 : es.Pairwise fun a b => a.2 < b.2) (h2 : ∀ e ∈ es, e.2 < n)
    (h3 : ∀ e ∈ es, w.checkHeaders e.1.headers = .ok true) :
    QR env n (some (w, c)) ⟨[(w, es.tail.map (·.1))], [(w, c)], [w]⟩
      ⟨es.tail.map fun e => (e.1, env.clock e.2), [(w, c)], [w]⟩ :=
  ⟨es.tail, rfl, rfl, h1.sublist (List.tail_sublist es), fun e he => h2 e (List.mem_of_mem_tail he),
    fun e he => h3 e (List.mem_of_mem_tail he)⟩

theorem qAssign_rh (hk : Keeps env) (w : Worker) :
    RH b (HR env b ws (some (w, none))) (qAssign env w) (qAssign env w)
      (fun r => HR env b ws (some (w, r))) := by
  intro s s' h
  obtain ⟨es, hq, hq', h1, h2, h3⟩ := h.queue
  have e3 : qAssign env w s = .ok (es.head?.map (·.1)) { s with
      queue := ⟨[(w, es.tail.map (·.1))], [(w, es.head?.map (·.1))], [w]⟩ } := by
    show EStateM.Result.ok (Multi.assignRequest s.queue w).1
      { s with queue := (Multi.assignRequest s.queue w).2 } = _
    rw [hq, multi_assign]
  have e4 : qAssign env w s' = .ok (es.head?.map (·.1)) { s' with
      queue := ⟨es.tail.map fun e => (e.1, env.clock e.2), [(w, es.head?.map (·.1))], [w]⟩ } := by
    have := single_assign hk (w := w) (c := none) h1 h3
    rw [← hq'] at this
    show (EStateM.bind (liftE (Single.assignRequest env.srt s'.queue w)) _) s' = _
    rw [this]; rfl
  rw [e3, e4]
  exact .ok { h with queue := tail_qr h1 h2 h3 }

theorem qFinished_rh (hk : Keeps env) (w : Worker) (c : Option Req) :
    RH b (HR env b ws (some (w, c))) (qFinished env w) (qFinished env w)
      (fun r => HR env b ws (some (w, r))) := by
  intro s s' h
  obtain ⟨es, hq, hq', h1, h2, h3⟩ := h.queue
  have e3 : qFinished env w s = .ok (es.head?.map (·.1)) { s with
      queue := ⟨[(w, es.tail.map (·.1))], [(w, es.head?.map (·.1))], [w]⟩ } := by
    show EStateM.Result.ok (Multi.workerFinished s.queue w).1
      { s with queue := (Multi.workerFinished s.queue w).2 } = _
    have : Multi.workerFinished s.queue w =
        Multi.assignRequest ⟨[(w, es.map (·.1))], [(w, none)], [w]⟩ w := by
      rw [hq]; simp [Multi.workerFinished, WMap.put]
    rw [this, multi_assign]
  have e4 : qFinished env w s' = .ok (es.head?.map (·.1)) { s' with
      queue := ⟨es.tail.map fun e => (e.1, env.clock e.2), [(w, es.head?.map (·.1))], [w]⟩ } := by
    have := single_assign hk (w := w) (c := c) h1 h3
    rw [← hq'] at this
    show (EStateM.bind (liftE (Single.assignRequest env.srt s'.queue w)) _) s' = _
    rw [this]; rfl
  rw [e3, e4]
  exact .ok { h with queue := tail_qr h1 h2 h3 }

theorem splitJobs_nil (l : List Entry) :
    Single.splitJobs [] l = .ok (l.map (·.1), []) := by
  induction l with
  | nil => rfl
  | cons e t ih =>
    simp [Single.splitJobs, Single.isAssignable, ih, Pure.pure, Bind.bind, Except.pure, Except.bind]

theorem qTerminated_rh (w : Worker) (c : Option Req) :
    RH b (HR env b ws (some (w, c))) (qTerminated w) (qTerminated w)
      (fun _ => HR env b ws none) := by
  intro s s' h
  obtain ⟨es, hq, hq', h1, h2, h3⟩ := h.queue
  have e3 : qTerminated w s = .ok (c.toList ++ es.map (·.1)) { s with queue := ⟨[], [], []⟩ } := by
    show EStateM.Result.ok (Multi.workerTerminated s.queue w).1
      { s with queue := (Multi.workerTerminated s.queue w).2 } = _
    rw [hq]
    simp [Multi.workerTerminated, WMap.getD, WMap.find, WMap.erase, Multi.listRemove]
  have e4 : qTerminated w s' = .ok (c.toList ++ es.map (·.1)) { s' with
      queue := ⟨[], [], []⟩ } := by
    have : Single.workerTerminated s'.queue w =
        .ok (c.toList ++ es.map (·.1), ⟨[], [], []⟩) := by
      rw [hq']
      simp [Single.workerTerminated, WMap.getD, WMap.find, WMap.erase, splitJobs_nil, Pure.pure,
        Bind.bind, Except.pure, Except.bind]
    show (EStateM.bind (liftE (Single.workerTerminated s'.queue w)) _) s' = _
    rw [this]; rfl
  rw [e3, e4]
  exact .ok { h with queue := ⟨rfl, rfl⟩ }

/-- How the worker's current job changes when a job is enqueued. -/
def afterEnq (r : Req) (res : EnqResult) :
    Option (Worker × Option Req) → Option (Worker × Option Req)
  | none => none
  | some (w, c) => some (w, if res.assignedTo.isSome then some r else c)

theorem qEnqueue_rh (r : Req) :
    RH b (HR env b ws i) (qEnqueue env r) (qEnqueue env r)
      (fun res => HR env b ws (afterEnq r res i)) := by
  intro s s' h
  have hx : qEnqueue env r s = (EStateM.bind (liftE (Multi.enqueueRequest s.queue r)) fun p t =>
      .ok p.1 { t with queue := p.2, clockReads := t.clockReads + 1 }) s := rfl
  have hy : qEnqueue env r s' = (EStateM.bind (liftE (Single.enqueueRequest s'.queue
      (env.clock s'.clockReads) r)) fun p t =>
      .ok p.1 { t with queue := p.2, clockReads := t.clockReads + 1 }) s' := rfl
  have done : ∀ (res : EnqResult) (q1 : Multi) (q2 : Single),
      Multi.enqueueRequest s.queue r = .ok (res, q1) →
      Single.enqueueRequest s'.queue (env.clock s'.clockReads) r = .ok (res, q2) →
      QR env (s.clockReads + 1) (afterEnq r res i) q1 q2 →
      Res b (fun res => HR env b ws (afterEnq r res i)) (qEnqueue env r s) (qEnqueue env r s') := by
    intro res q1 q2 a1 a2 a3
    rw [hx, hy, a1, a2]
    exact .ok { h with queue := a3, clockReads := by show _ + 1 = _ + 1; rw [h.clockReads] }
  cases i with
  | none =>
    obtain ⟨hq, hq'⟩ := h.queue
    refine done ⟨none, false⟩ ⟨[], [], []⟩ ⟨[], [], []⟩ ?_ ?_ ⟨rfl, rfl⟩
    · rw [hq]; rfl
    · rw [hq']; rfl
  | some p =>
    obtain ⟨w, c⟩ := p
    obtain ⟨es, hq, hq', h1, h2, h3⟩ := h.queue
    have up : ∀ e ∈ es, e.2 < s.clockReads + 1 := fun e he => Nat.lt_succ_of_lt (h2 e he)
    cases hc : w.checkHeaders r.headers with
    | error e =>
      have a1 : Multi.enqueueRequest s.queue r = .error e := by
        rw [hq]
        simp [Multi.enqueueRequest, Multi.findWorker, hc, Bind.bind, Except.bind]
      have a2 : Single.enqueueRequest s'.queue (env.clock s'.clockReads) r = .error e := by
        rw [hq']
        cases c <;> simp [Single.enqueueRequest, Single.select, Single.isAssignable, hc, Bind.bind,
          Except.bind]
      rw [hx, hy, a1, a2]
      exact .error h.outs
    | ok v =>
      cases v with
      | false =>
        refine done ⟨none, false⟩ _ _ ?_ ?_ ⟨es, rfl, rfl, h1, up, h3⟩
        · rw [hq]
          simp [Multi.enqueueRequest, Multi.findWorker, hc, Bind.bind, Except.bind, Pure.pure,
            Except.pure]
        · rw [hq']
          cases c <;> simp [Single.enqueueRequest, Single.select, Single.isAssignable, hc, Bind.bind,
            Except.bind, Pure.pure, Except.pure]
      | true =>
        cases c with
        | none =>
          refine done ⟨some w, true⟩ _ _ ?_ ?_ ⟨es, rfl, rfl, h1, up, h3⟩
          · rw [hq]
            simp [Multi.enqueueRequest, Multi.findWorker, hc, Bind.bind, Except.bind, Pure.pure,
              Except.pure, Multi.listRemove, WMap.getD, WMap.find, WMap.put]
          · rw [hq']
            simp [Single.enqueueRequest, Single.select, hc, Bind.bind,
              Except.bind, Pure.pure, Except.pure, WMap.put]
        | some c =>
          refine done ⟨none, true⟩ _ _ ?_ ?_
            ⟨es ++ [(r, s.clockReads)], rfl, rfl, ?_, ?_, ?_⟩
          · rw [hq]
            simp [Multi.enqueueRequest, Multi.findWorker, hc, Bind.bind, Except.bind, Pure.pure,
              Except.pure, Multi.listRemove, WMap.getD, WMap.find, WMap.put]
          · rw [hq']
            simp [Single.enqueueRequest, Single.select, Single.isAssignable, hc, Bind.bind,
              Except.bind, Pure.pure, Except.pure, h.clockReads]
          · rw [List.pairwise_append]
            exact ⟨h1, by simp, fun a ha x hx => by simp at hx; subst hx; exact h2 a ha⟩
          · intro e he
            rcases List.mem_append.1 he with h' | h'
            · exact up e h'
            · simp at h'; subst h'; exact Nat.lt_succ_self _
          · intro e he
            rcases List.mem_append.1 he with h' | h'
            · exact h3 e h'
            · simp at h'; subst h'; exact hc

theorem qAddWorker_rh (hk : Keeps env) (w : Worker) (cur : Option Req) {s : HState Multi}
    {s' : HState Single} (h : HR env b ws none s s') :
    ∃ t t', qAddWorker env w cur s = .ok none t ∧ qAddWorker env w cur s' = .ok cur t' ∧
      HR env b ws (some (w, cur)) t t' := by
  obtain ⟨hq, hq'⟩ := h.queue
  refine ⟨{ s with queue := ⟨[(w, [])], [(w, cur)], [w]⟩ },
    { s' with queue := ⟨[], [(w, cur)], [w]⟩ }, ?_, ?_,
    { h with queue := ⟨[], rfl, rfl, .nil, by simp, by simp⟩ }⟩
  · show EStateM.Result.ok (Multi.addWorker s.queue w cur).1
      { s with queue := (Multi.addWorker s.queue w cur).2 } = _
    rw [hq]; rfl
  · have : Single.addWorker env.srt s'.queue w cur = .ok (cur, ⟨[], [(w, cur)], [w]⟩) := by
      rw [hq']
      cases cur with
      | some r => rfl
      | none =>
        have := single_assign hk (w := w) (c := none) (es := []) .nil (by simp)
        simpa [Single.addWorker, WMap.put] using this
    show (EStateM.bind (liftE (Single.addWorker env.srt s'.queue w cur)) _) s' = _
    rw [this]; rfl

/-! ## Commands -/

/-- The current job of the worker, whatever it is. -/
def HRx (env : Env) (b : Bool) (ws : List Worker) (o : Option Worker) (s : HState Multi)
    (s' : HState Single) : Prop :=
  ∃ i : Option (Worker × Option Req), i.map (·.1) = o ∧ HR env b ws i s s'

theorem HR.x {s : HState Multi} {s' : HState Single} (h : HR env b ws i s s') :
    HRx env b ws (i.map (·.1)) s s' := ⟨i, rfl, h⟩

theorem RH.exists {ι : Type} {P : ι → HState Multi → HState Single → Prop} {x : HM Multi α}
    {y : HM Single α} {R : α → HState Multi → HState Single → Prop}
    (h : ∀ j, RH b (P j) x y R) : RH b (fun s s' => ∃ j, P j s s') x y R :=
  fun s s' ⟨j, hj⟩ => h j s s' hj

theorem RH.hrx {o : Option Worker} {x : HM Multi α} {y : HM Single α}
    {R : α → HState Multi → HState Single → Prop}
    (h : ∀ i : Option (Worker × Option Req), i.map (·.1) = o → RH b (HR env b ws i) x y R) :
    RH b (HRx env b ws o) x y R :=
  fun s s' ⟨i, hi, hs⟩ => h i hi s s' hs

/-- A computation that keeps the worker, in terms of `HRx`. -/
theorem RH.keepx {x : HM Multi α} {y : HM Single α} {o : Option Worker}
    (h : ∀ i, RH b (HR env b ws i) x y (fun _ => HR env b ws i)) :
    RH b (HRx env b ws o) x y (fun _ => HRx env b ws o) :=
  fun s s' ⟨i, hi, hs⟩ => (h i).conseq (fun _ _ h => h) (fun _ _ _ h => ⟨i, hi, h⟩) s s' hs

theorem qEnqueue_rhx (r : Req) {o : Option Worker} :
    RH b (HRx env b ws o) (qEnqueue env r) (qEnqueue env r) (fun _ => HRx env b ws o) := by
  refine RH.hrx fun i hi => (qEnqueue_rh r).conseq (fun _ _ h => h) fun res s s' h => ⟨_, ?_, h⟩
  rw [← hi]
  cases i with
  | none => rfl
  | some p => rfl

theorem reassign_rhx (r : Req) {o : Option Worker} :
    RH b (HRx env b ws o) (reassignRequest env r) (reassignRequest env r)
      (fun _ => HRx env b ws o) := by
  unfold reassignRequest
  refine (qEnqueue_rhx r).bind fun res => ?_
  split
  · split
    · exact (RH.keepx fun _ => sendRequest_rh _ _).bind fun _ => RH.pure fun _ _ h => h
    · exact RH.pure fun _ _ h => h
  · exact (RH.keepx fun _ => respond_rh _ _ _).bind fun _ => RH.pure fun _ _ h => h

theorem submit_rhx (identity jobId : String) (hs : Headers) (md : Metadata) (ad : List String)
    {o : Option Worker} :
    RH b (HRx env b ws o) (submit env identity jobId hs md ad) (submit env identity jobId hs md ad)
      (fun _ => HRx env b ws o) := by
  unfold submit
  refine RH.get fun s s' h => ?_
  have e : s'.nextRid = s.nextRid := by obtain ⟨i, _, h⟩ := h; exact h.nextRid
  rw [e]
  refine RH.bind (R := fun _ => HRx env b ws o) ?_ fun _ => (qEnqueue_rhx _).bind fun res => ?_
  · rintro _ _ ⟨rfl, rfl⟩
    obtain ⟨i, hi, h⟩ := h
    exact .ok ⟨i, hi, { h with fc := by show upd _ _ _ = _; rw [h.fc], nextRid := rfl }⟩
  · split
    · dsimp only
      split
      · exact (RH.keepx fun _ => sendRequest_rh _ _).bind fun _ => RH.keepx fun _ => respond_rh _ _ _
      · exact RH.keepx fun _ => respond_rh _ _ _
    · exact (RH.keepx fun _ => respond_rh _ _ _).bind fun _ => RH.keepx fun _ => respond_rh _ _ _

theorem processEval_rhx (identity : String) (m : List String) {o : Option Worker} :
    RH b (HRx env b ws o) (processEval env identity m) (processEval env identity m)
      (fun _ => HRx env b ws o) := by
  unfold processEval
  refine (RH.keepx fun _ => respond_rh _ _ _).bind fun _ => ?_
  split
  · exact RH.throw fun _ _ ⟨_, _, h⟩ => h.outs
  · split
    · exact RH.throw fun _ _ ⟨_, _, h⟩ => h.outs
    · exact RH.pure fun _ _ h => h
    · refine RH.get fun s s' h => RH.of ?_ h
      have e : s'.frozen = s.frozen := by obtain ⟨i, _, h⟩ := h; exact h.frozen
      rw [e]
      split
      · exact RH.keepx fun _ => respond_rh _ _ _
      · exact submit_rhx _ _ _ _ _

theorem clientCommand_rhx (c identity : String) (m : List String) {o : Option Worker} :
    RH b (HRx env b ws o) (clientCommand env c identity m) (clientCommand env c identity m)
      (fun _ => HRx env b ws o) := by
  unfold clientCommand
  split
  · exact processEval_rhx _ _
  split
  · unfold processStats
    refine RH.get fun s s' h => RH.of ?_ h
    have e : s'.frozen = s.frozen := by obtain ⟨i, _, h⟩ := h; exact h.frozen
    have e2 : s'.stats = s.stats := by obtain ⟨i, _, h⟩ := h; exact h.stats
    rw [e, e2]
    exact RH.keepx fun _ => respond_rh _ _ _
  split
  · refine RH.bind (R := fun _ => HRx env b ws o) ?_ fun _ => RH.keepx fun _ => respond_rh _ _ _
    exact fun s s' ⟨i, hi, h⟩ => .ok ⟨i, hi, { h with frozen := rfl }⟩
  split
  · refine RH.bind (R := fun _ => HRx env b ws o) ?_ fun _ => RH.keepx fun _ => respond_rh _ _ _
    exact fun s s' ⟨i, hi, h⟩ => .ok ⟨i, hi, { h with frozen := rfl }⟩
  · exact RH.pure fun _ _ h => h

theorem doneOk_rhx (hk : Keeps env) (w : Worker) (j : String) :
    RH b (HRx env b ws (some w)) (doneOk env w j) (doneOk env w j)
      (fun _ => HRx env b ws (some w)) := by
  unfold doneOk
  refine (RH.keepx fun _ => respond_rh _ _ _).bind fun _ => ?_
  refine RH.bind (R := fun _ => HRx env b ws (some w)) ?_ fun next =>
    (RH.keepx fun _ => sendIfSome_rh _ _).bind fun _ => RH.keepx fun _ => countEvaluated_rh
  refine RH.hrx fun i hi => ?_
  obtain ⟨⟨w', c⟩, rfl, rfl⟩ := Option.map_eq_some_iff.1 hi
  exact (qFinished_rh hk w' c).conseq (fun _ _ h => h) fun _ _ _ h => h.x

theorem qCancelled_rhx (w : Worker) :
    RH b (HRx env b ws (some w)) (qCancelled w) (qCancelled w)
      (fun _ => HR env b ws (some (w, none))) := by
  refine RH.hrx fun i hi => ?_
  obtain ⟨⟨w', c⟩, rfl, rfl⟩ := Option.map_eq_some_iff.1 hi
  exact (qCancelled_rh w' c).conseq (fun _ _ h => h) fun _ _ _ h => h.2

theorem qCurrent_rhx (w : Worker) :
    RH b (HRx env b ws (some w)) (qCurrent w) (qCurrent w)
      (fun _ => HRx env b ws (some w)) := by
  refine RH.hrx fun i hi => ?_
  obtain ⟨⟨w', c⟩, rfl, rfl⟩ := Option.map_eq_some_iff.1 hi
  exact (qCurrent_rh w' c).conseq (fun _ _ h => h) fun _ _ _ h => h.2.x

theorem doneInternal_rhx (hk : Keeps env) (cfg : HConfig) (w : Worker) (text : String) :
    RH b (HRx env b ws (some w)) (doneInternal cfg env w text) (doneInternal cfg env w text)
      (fun _ => HRx env b ws (some w)) := by
  unfold doneInternal
  refine (qCancelled_rhx w).bind fun r => ?_
  split
  · exact RH.throw fun _ _ h => h.outs
  · refine (bumpCount_rh _).bind fun _ => ?_
    split
    · exact (respond_rh _ _ _).bind fun _ => countFailed_rh.conseq (fun _ _ h => h)
        fun _ _ _ h => h.x
    · refine (checkFailureCount_rh cfg _ text).bind fun ok => ?_
      split
      · exact RH.conseq ((reassign_rhx _).bind fun _ => RH.keepx fun _ => countFailed_rh)
          (fun _ _ h => h.x) fun _ _ _ h => h
      · exact (qAssign_rh hk w).bind fun next => (sendIfSome_rh w next).bind fun _ =>
          countFailed_rh.conseq (fun _ _ h => h) fun _ _ _ h => h.x

theorem doneFailed_rhx (hk : Keeps env) (w : Worker) (j text : String) :
    RH b (HRx env b ws (some w)) (doneFailed env w j text) (doneFailed env w j text)
      (fun _ => HRx env b ws (some w)) := by
  unfold doneFailed
  refine (RH.keepx fun _ => respond_rh _ _ _).bind fun _ => (qCancelled_rhx w).bind fun r => ?_
  split
  · exact RH.throw fun _ _ h => h.outs
  · refine (bumpCount_rh _).bind fun _ => (qAssign_rh hk w).bind fun next =>
      (sendIfSome_rh w next).bind fun _ => countFailed_rh.conseq (fun _ _ h => h)
        fun _ _ _ h => h.x

/-- The registry holds the worker the queue manager knows. -/
abbrev Same (env : Env) (b : Bool) (o : Option Worker) (s : HState Multi) (s' : HState Single) :
    Prop := HRx env b o.toList o s s'

theorem Same.workers {o : Option Worker} {s : HState Multi} {s' : HState Single}
    (h : Same env b o s s') : s.workers = o.toList ∧ s'.workers = o.toList := by
  obtain ⟨_, _, h⟩ := h; exact ⟨h.workers, h.workers'⟩

theorem regFind_toList {identity : String} {o : Option Worker} {w : Worker}
    (h : regFind identity o.toList = some w) : o = some w := by
  cases o with
  | none => simp [regFind] at h
  | some x => simp [regFind] at h; rw [h.2]

theorem processDone_rhx (hk : Keeps env) (cfg : HConfig) (identity : String) (m : List String)
    {o : Option Worker} :
    RH b (Same env b o) (processDone cfg env identity m) (processDone cfg env identity m)
      (fun _ => Same env b o) := by
  unfold processDone
  refine RH.get fun s s' h => RH.of ?_ h
  rw [h.workers.1, h.workers.2]
  cases hf : regFind identity o.toList with
  | none => exact RH.pure fun _ _ h => h
  | some w =>
    have := regFind_toList hf
    subst this
    dsimp only
    split
    · refine (qCurrent_rhx w).bind fun c => ?_
      split
      · exact RH.throw fun _ _ ⟨_, _, h⟩ => h.outs
      split
      · exact RH.pure fun _ _ h => h
      split
      · exact (doneOk_rhx hk w _).bind fun _ => (qCurrent_rhx w).bind fun _ => RH.pure fun _ _ h => h
      split
      · split
        · exact (doneInternal_rhx hk cfg w _).bind fun _ => (qCurrent_rhx w).bind fun _ =>
            RH.pure fun _ _ h => h
        · exact RH.pure fun _ _ h => h
      split
      · split
        · exact (doneFailed_rhx hk w _ _).bind fun _ => (qCurrent_rhx w).bind fun _ =>
            RH.pure fun _ _ h => h
        · exact RH.pure fun _ _ h => h
      · exact (qCurrent_rhx w).bind fun _ => RH.pure fun _ _ h => h
    · exact RH.pure fun _ _ h => h

theorem processPing_rhx (identity : String) {o : Option Worker} :
    RH b (Same env b o) (processPing identity) (processPing identity) (fun _ => Same env b o) := by
  unfold processPing
  refine RH.get fun s s' h => RH.of ?_ h
  rw [h.workers.1, h.workers.2]
  split
  · exact RH.keepx fun _ => respond_rh _ _ _
  · exact RH.keepx fun _ => respond_rh _ _ _

theorem touchWorker_rhx (cfg : HConfig) (identity : String) {o : Option Worker} :
    RH b (Same env b o) (touchWorker cfg identity) (touchWorker cfg identity)
      (fun _ => Same env b o) := by
  unfold touchWorker
  refine RH.get fun s s' h => ?_
  rw [h.workers.1, h.workers.2]
  split
  · rintro _ _ ⟨rfl, rfl⟩; exact .ok h
  · rintro _ _ ⟨rfl, rfl⟩
    obtain ⟨i, hi, h⟩ := h
    exact .ok ⟨i, hi, { h with workers := rfl, workers' := rfl,
                               live := by show upd _ _ _ = _; rw [h.live],
                               timers := by show WMap.put _ _ _ = _; rw [h.timers] }⟩

/-! ## Timer -/

theorem tickWorker_rhx (cfg : HConfig) (time : Int) (w : Worker) {o : Option Worker} :
    RH b (Same env b o) (tickWorker cfg time w) (tickWorker cfg time w) (fun _ => Same env b o) := by
  unfold tickWorker
  refine RH.get fun s s' h => ?_
  obtain ⟨i, hi, h⟩ := h
  rw [h.timers, h.live]
  dsimp only
  split
  · rintro _ _ ⟨rfl, rfl⟩
    exact .ok ⟨i, hi, { h with live := rfl, timers := rfl }⟩
  · rintro _ _ ⟨rfl, rfl⟩
    exact .ok ⟨i, hi, { h with live := rfl, timers := rfl }⟩

theorem tickWorkers_rhx (cfg : HConfig) (time : Int) (ws : List Worker) {o : Option Worker} :
    RH b (Same env b o) (tickWorkers cfg time ws) (tickWorkers cfg time ws)
      (fun l s s' => l.Sublist ws ∧ Same env b o s s') := by
  induction ws with
  | nil => exact RH.pure fun _ _ h => ⟨.slnil, h⟩
  | cons w ws ih =>
    refine (tickWorker_rhx cfg time w).bind fun e => ih.bind fun l => RH.pure fun _ _ h => ?_
    cases e
    · exact ⟨h.1.cons _, h.2⟩
    · exact ⟨h.1.cons_cons _, h.2⟩

theorem settle_rhx (cfg : HConfig) (rs : List Req) {o : Option Worker} :
    RH b (HRx env b ws o) (settleRequests cfg env rs) (settleRequests cfg env rs)
      (fun _ => HRx env b ws o) := by
  induction rs with
  | nil => exact RH.pure fun _ _ h => h
  | cons r rs ih =>
    unfold settleRequests
    split
    · exact (RH.keepx fun _ => respond_rh _ _ _).bind fun _ =>
        (RH.keepx fun _ => respond_rh _ _ _).bind fun _ => ih
    · refine (RH.keepx fun _ => checkFailureCount_rh cfg _ _).bind fun ok => ?_
      split
      · refine (reassign_rhx r).bind fun ok => ?_
        split
        · exact (RH.keepx fun _ => respond_rh _ _ _).bind fun _ => ih
        · exact ih.bind fun _ => RH.pure fun _ _ h => h
      · exact ih

theorem rejectAll_rhx (d : String) (rs : List Req) {o : Option Worker} :
    RH b (HRx env b ws o) (rejectAll d rs) (rejectAll d rs) (fun _ => HRx env b ws o) := by
  induction rs with
  | nil => exact RH.pure fun _ _ h => h
  | cons r rs ih => exact (RH.keepx fun _ => respond_rh _ _ _).bind fun _ => ih

theorem expireWorker_rhx (cfg : HConfig) (w : Worker) :
    RH b (Same env b (some w)) (expireWorker cfg env w) (expireWorker cfg env w)
      (fun _ => Same env b none) := by
  unfold expireWorker
  refine RH.bind (R := fun _ => HRx env b [] (some w)) ?_ fun _ => ?_
  · rintro s s' ⟨i, hi, h⟩
    have e : ∀ l : List Worker, l = [w] → regRemove w l = [] := by
      rintro _ rfl; simp [regRemove]
    exact .ok ⟨i, hi, { h with workers := e _ h.workers, workers' := e _ h.workers' }⟩
  refine (qCurrent_rhx w).bind fun c => ?_
  have fin : RH b (HRx env b [] (some w)) (qTerminated w) (qTerminated w)
      (fun _ => HRx env b [] none) := by
    refine RH.hrx fun i hi => ?_
    obtain ⟨⟨w', c⟩, rfl, rfl⟩ := Option.map_eq_some_iff.1 hi
    exact (qTerminated_rh w' c).conseq (fun _ _ h => h) fun _ _ _ h => h.x
  dsimp only
  split
  · exact (RH.keepx fun _ => bumpCount_rh _).bind fun _ => fin.bind fun rs =>
      (settle_rhx cfg rs).bind fun u => rejectAll_rhx _ u
  · exact fin.bind fun rs => (settle_rhx cfg rs).bind fun u => rejectAll_rhx _ u

theorem updateGauges_rhx {o : Option Worker} :
    RH b (Same env b o) updateGauges updateGauges (fun _ => Same env b o) := by
  unfold updateGauges
  refine RH.get fun s s' h => ?_
  have e : QueueManager.queuedCount s'.queue = QueueManager.queuedCount s.queue := by
    obtain ⟨i, hi, h⟩ := h
    show s'.queue.jobs.length = Multi.queuedCount s.queue
    cases i with
    | none =>
      obtain ⟨h1, h2⟩ := h.queue
      rw [h1, h2]; rfl
    | some p =>
      obtain ⟨w, c⟩ := p
      obtain ⟨es, h1, h2, _⟩ := h.queue
      rw [h1, h2]; simp [Multi.queuedCount]
  rw [e, h.workers.1, h.workers.2]
  refine RH.of ?_ h
  refine RH.bind (R := fun _ => Same env b o) ?_ fun n => ?_
  · cases o with
    | none => exact RH.pure fun _ _ h => h
    | some w =>
      exact (qCurrent_rhx w).bind fun _ => RH.bind (R := fun _ => Same env b (some w))
        (RH.pure fun _ _ h => h) fun _ => RH.pure fun _ _ h => h
  · rintro t t' ⟨i, hi, h⟩
    exact .ok ⟨i, hi, { h with stats := by dsimp only; rw [h.stats, h.workers, h.workers'] }⟩

theorem processTimer_rhx (cfg : HConfig) (m : List String) {o : Option Worker} :
    RH b (Same env b o) (processTimer cfg env m) (processTimer cfg env m)
      (fun _ s s' => ∃ o, Same env b o s s') := by
  unfold processTimer
  split
  · exact RH.throw fun _ _ ⟨_, _, h⟩ => h.outs
  · refine (RH.keepx fun _ => liftE_rh _).bind fun time => ?_
    refine RH.get fun s s' h => RH.of ?_ h
    rw [(Same.workers h).1, (Same.workers h).2]
    refine (tickWorkers_rhx cfg time _).bind fun l => ?_
    refine RH.bind (R := fun _ s s' => ∃ o, Same env b o s s') ?_ fun _ => RH.exists fun o =>
      updateGauges_rhx.conseq (fun _ _ h => h) fun _ _ _ h => ⟨o, h⟩
    intro s s' ⟨hl, h⟩
    cases o with
    | none =>
      have : l = [] := by simpa using hl
      subst this
      exact .ok ⟨none, h⟩
    | some w =>
      have : l = [] ∨ l = [w] := by
        cases hl with
        | cons _ h => exact .inl (by simpa using h)
        | cons_cons _ h => exact .inr (by simpa using h)
      rcases this with rfl | rfl
      · exact .ok ⟨some w, h⟩
      · exact RH.bind (expireWorker_rhx cfg w) (fun _ => RH.pure fun _ _ h => ⟨none, h⟩) s s' h

/-! ## Registration -/

theorem bindOk {Q α β : Type} {x : HM Q α} {f : α → HM Q β} {s t : HState Q} {a : α}
    (h : x s = .ok a t) : (x >>= f) s = f a t := by
  show EStateM.bind x f s = _
  unfold EStateM.bind; rw [h]

theorem setBind {Q β : Type} {f : PUnit → HM Q β} {s t : HState Q} :
    ((set t : HM Q PUnit) >>= f) s = f ⟨⟩ t := rfl

/-- Registering a worker while there is none. -/
theorem register_rhx (hk : Keeps env) (identity hw : String) (hs : Headers) (ex : List String)
    (hb : b = true → (initExtra ex "" none).2 = none) :
    RH b (Same env b none) (registerWorker env identity hw hs ex)
      (registerWorker env identity hw hs ex) (fun _ s s' => ∃ o, Same env b o s s') := by
  unfold registerWorker
  refine RH.get fun s s' h => ?_
  obtain ⟨i, hi, h⟩ := h
  have hi : i = none := by cases i with | none => rfl | some p => simp at hi
  subst hi
  have ea : s'.addrs = s.addrs := by
    unfold HState.addrs; rw [h.workers, h.workers', h.timers]
  rw [ea, h.allocs, h.nextRid, h.live, h.fc, h.workers, h.workers']
  revert hb
  generalize initExtra ex "" none = p
  obtain ⟨desc, job⟩ := p
  intro hb
  dsimp only at hb ⊢
  cases hc : Worker.create (env.alloc s.allocs s.addrs) identity hw hs desc with
  | error e =>
    rintro _ _ ⟨rfl, rfl⟩
    exact .error h.outs
  | ok w =>
    rintro u u' ⟨hu, hu'⟩
    rw [hu, hu']
    have h1 : HR env b [w] none
        { s with live := upd s.live (env.alloc s.allocs s.addrs) 0, allocs := s.allocs + 1,
                 fc := upd s.fc s.nextRid 0, nextRid := s.nextRid + 1, workers := [] ++ [w] }
        { s' with live := upd s.live (env.alloc s.allocs s.addrs) 0, allocs := s.allocs + 1,
                  fc := upd s.fc s.nextRid 0, nextRid := s.nextRid + 1, workers := [] ++ [w] } :=
      { h with workers := rfl, workers' := rfl, live := rfl, allocs := rfl, fc := rfl,
               nextRid := rfl }
    obtain ⟨t, t', e1, e2, h2⟩ := qAddWorker_rh hk w (job.map (Req.incomplete s.nextRid)) h1
    have fin : ∀ (u : HState Multi) (u' : HState Single),
        HR env b [w] (some (w, job.map (Req.incomplete s.nextRid))) u u' →
        Res b (fun (_ : Unit) s s' => ∃ o, Same env b o s s')
          (EStateM.Result.ok () { u with timers := u.timers.emplace w 0 })
          (EStateM.Result.ok () { u' with timers := u'.timers.emplace w 0 }) :=
      fun u u' hu => .ok ⟨some w, _, rfl, { hu with timers := by dsimp only; rw [hu.timers] }⟩
    rw [bindOk (show liftE (Except.ok w) s = .ok w s from rfl),
      bindOk (show liftE (Except.ok w) s' = .ok w s' from rfl), setBind, setBind]
    refine (show Res b _ ((qAddWorker env w (job.map (Req.incomplete s.nextRid)) >>= _) _)
      ((qAddWorker env w (job.map (Req.incomplete s.nextRid)) >>= _) _) from ?_)
    erw [bindOk e1, bindOk e2]
    cases job with
    | none => exact fin t t' h2
    | some j =>
      refine fin t { t' with outs := t'.outs ++ [⟨keyWorkers, w.identity, []⟩] }
        { h2 with outs := ?_ }
      cases b with
      | true => exact absurd (hb rfl) (by simp)
      | false =>
        have := h2.outs
        simp only [OutsR, Bool.false_eq_true, if_false] at this ⊢
        rw [List.filter_append, this]
        simp [solid, keyWorkers]

/-- A registration adds a worker, or fails in the same way with both queue managers. -/
theorem register_two (env : Env) (identity hw : String) (hs : Headers) (ex : List String)
    {o : Option Worker} {s : HState Multi} {s' : HState Single} (h : Same env b o s s') :
    (∃ t, registerWorker env identity hw hs ex s = .ok () t ∧
      t.workers.length = s.workers.length + 1) ∨
    ∃ e, registerWorker env identity hw hs ex s = .error e s ∧
      registerWorker env identity hw hs ex s' = .error e s' := by
  obtain ⟨i, _, h⟩ := h
  have ea : s'.addrs = s.addrs := by
    unfold HState.addrs; rw [h.workers, h.workers', h.timers]
  cases hc : Worker.create (env.alloc s.allocs s.addrs) identity hw hs
      (initExtra ex "" none).1 with
  | error e =>
    right
    refine ⟨.exn e, ?_, ?_⟩
    · show EStateM.bind (liftE (Worker.create (env.alloc s.allocs s.addrs) identity hw hs
        (initExtra ex "" none).1)) _ s = _
      rw [hc]; rfl
    · show EStateM.bind (liftE (Worker.create (env.alloc s'.allocs s'.addrs) identity hw hs
        (initExtra ex "" none).1)) _ s' = _
      rw [ea, h.allocs, hc]; rfl
  | ok w =>
    left
    refine ⟨?t, ?h1, ?h2⟩
    case h1 =>
      show EStateM.bind (liftE (Worker.create (env.alloc s.allocs s.addrs) identity hw hs
        (initExtra ex "" none).1)) _ s = _
      rw [hc]; rfl
    case h2 => show (s.workers ++ [w]).length = _; simp

theorem processInit_rhx (hk : Keeps env) (identity : String) (m : List String)
    (hb : b = true → Spec.currentJob m = none) {o : Option Worker} {s : HState Multi}
    {s' : HState Single} (h : Same env b o s s')
    (hone : ∀ t, processInit env identity m s = .ok () t → t.workers.length ≤ 1) :
    Res b (fun _ s s' => ∃ o, Same env b o s s') (processInit env identity m s)
      (processInit env identity m s') := by
  match m, hb, hone with
  | [], _, _ => exact .ok ⟨o, h⟩
  | [_], _, _ => exact .ok ⟨o, h⟩
  | c :: hw :: rest, hb, hone =>
    rw [currentJob_eq] at hb
    have e1 : ∀ {Q : Type} [QueueManager Q] (u : HState Q),
        processInit env identity (c :: hw :: rest) u =
        (match regFind identity u.workers with
        | some w =>
          if w.headersEqual (initHeaders rest []).1 then pure ()
          else do
            notifyError ("Received two different INIT messages from the same worker ("
              ++ w.getDescription ++ ")")
            registerWorker env identity hw (initHeaders rest []).1 (initHeaders rest []).2
        | none => registerWorker env identity hw (initHeaders rest []).1 (initHeaders rest []).2) u :=
      fun _ => rfl
    rw [e1] at hone ⊢
    rw [e1]
    rw [(Same.workers h).1] at hone ⊢
    rw [(Same.workers h).2]
    cases o with
    | none => exact register_rhx hk _ _ _ _ hb s s' h
    | some w =>
      have two : ∀ {u : HState Multi} {u' : HState Single}, Same env b (some w) u u' →
          (∀ t, registerWorker env identity hw (initHeaders rest []).1 (initHeaders rest []).2 u
            = .ok () t → t.workers.length ≤ 1) →
          Res b (fun (_ : Unit) s s' => ∃ o, Same env b o s s')
            (registerWorker env identity hw (initHeaders rest []).1 (initHeaders rest []).2 u)
            (registerWorker env identity hw (initHeaders rest []).1 (initHeaders rest []).2 u') := by
        intro u u' hu hone
        rcases register_two env identity hw (initHeaders rest []).1 (initHeaders rest []).2 hu with
          ⟨t, ht, hl⟩ | ⟨e, h1, h2⟩
        · have := hone t ht
          rw [hl, (Same.workers hu).1] at this
          simp at this
        · rw [h1, h2]
          obtain ⟨_, _, hu⟩ := hu
          exact .error hu.outs
      cases hf : regFind identity (some w).toList with
      | none => rw [hf] at hone; exact two h hone
      | some x =>
        rw [hf] at hone
        dsimp only at hone ⊢
        split
        · exact .ok ⟨some w, h⟩
        · rw [if_neg (by assumption)] at hone
          obtain ⟨i, hi, h⟩ := h
          exact two (u := { s with outs := s.outs ++ [_] }) (u' := { s' with outs := s'.outs ++ [_] })
            ⟨i, hi, { h with outs := h.outs.append _ }⟩ hone

theorem onRequest_rhx (hk : Keeps env) (cfg : HConfig) (m : Msg)
    (hb : b = true → m.key = "workers" → m.data.head? = some "init" →
      Spec.currentJob m.data = none)
    {o : Option Worker} {s : HState Multi} {s' : HState Single} (h : Same env b o s s')
    (hone : ∀ t, onRequest cfg env m s = .ok () t → t.workers.length ≤ 1) :
    Res b (fun _ s s' => ∃ o, Same env b o s s') (onRequest cfg env m s)
      (onRequest cfg env m s') := by
  have ret : ∀ {x : HM Multi Unit} {y : HM Single Unit},
      RH b (Same env b o) x y (fun _ => Same env b o) →
      RH b (Same env b o) x y (fun _ s s' => ∃ o, Same env b o s s') :=
    fun hx => hx.conseq (fun _ _ h => h) fun _ _ _ h => ⟨o, h⟩
  unfold onRequest at hone ⊢
  by_cases hw : m.key = keyWorkers
  · simp only [if_pos hw] at hone ⊢
    have ht := touchWorker_rhx (env := env) (b := b) cfg m.identity s s' h
    cases hx : touchWorker cfg m.identity s with
    | error e t =>
      cases hy : touchWorker cfg m.identity s' with
      | ok a t' => rw [hx, hy] at ht; cases ht
      | error e' t' =>
        rw [hx, hy] at ht
        show Res b _ (EStateM.bind _ _ s) (EStateM.bind _ _ s')
        unfold EStateM.bind
        rw [hx, hy]
        cases ht with | error ht => exact .error ht
    | ok a t =>
      cases hy : touchWorker cfg m.identity s' with
      | error e' t' => rw [hx, hy] at ht; cases ht
      | ok a' t' =>
        rw [hx, hy] at ht
        have ht : Same env b o t t' := by cases ht with | ok ht => exact ht
        rw [bindOk hx] at hone ⊢
        rw [bindOk hy]
        cases hd : m.data with
        | nil =>
          obtain ⟨_, _, ht⟩ := ht
          exact .error ht.outs
        | cons c rest =>
          rw [hd] at hone hb
          simp only [workerCommand] at hone ⊢
          by_cases h1 : c = "init"
          · simp only [if_pos h1] at hone ⊢
            exact processInit_rhx hk _ _ (fun hbt => hb hbt hw (by rw [h1]; rfl)) ht hone
          simp only [if_neg h1]
          refine ret ?_ t t' ht
          split
          · exact processDone_rhx hk cfg _ _
          split
          · exact processPing_rhx _
          split
          · exact RH.keepx fun _ => respond_rh _ _ _
          · exact RH.pure fun _ _ h => h
  · simp only [if_neg hw]
    split
    · cases hd : m.data with
      | nil => exact RH.throw (fun _ _ ⟨_, _, h⟩ => h.outs) s s' h
      | cons c rest => exact ret (clientCommand_rhx _ _ _) s s' h
    · split
      · exact processTimer_rhx cfg _ s s' h
      · exact .ok ⟨o, h⟩

theorem step_rhx (hk : Keeps env) (cfg : HConfig) (m : Msg)
    (hb : b = true → m.key = "workers" → m.data.head? = some "init" →
      Spec.currentJob m.data = none)
    {o : Option Worker} {s : HState Multi} {s' : HState Single} (h : Same env b o s s')
    (hone : ∀ t, step cfg env m s = .ok () t → t.workers.length ≤ 1) :
    Res b (fun _ s s' => ∃ o, Same env b o s s') (step cfg env m s) (step cfg env m s') := by
  obtain ⟨i, hi, h⟩ := h
  exact onRequest_rhx hk cfg m hb ⟨i, hi, { h with outs := OutsR.refl b [] }⟩ hone

theorem hr_init : HR env b [] none (HState.init Multi) (HState.init Single) where
  workers := rfl
  workers' := rfl
  timers := rfl
  live := rfl
  fc := rfl
  nextRid := rfl
  allocs := rfl
  clockReads := rfl
  stats := rfl
  frozen := rfl
  outs := OutsR.refl b []
  queue := ⟨rfl, rfl⟩

end OneWorker
end Broker
