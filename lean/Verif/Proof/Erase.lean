import Verif.Proof.Parsing
import Verif.Spec.Renaming
import Verif.Model.Multi
import Verif.Model.Single

/-!
# Renaming

Handling a message commutes with renaming job ids, client identities and payloads and forgetting
the metadata of all requests in the state.
-/

set_option linter.unusedSectionVars false

namespace Broker

open Spec (Renaming)

/-- The request renamed and without its metadata. -/
def Req.ren (ρ : Renaming) (r : Req) : Req :=
  { r with metadata := [], jobId := ρ.job r.jobId, frames := ρ.evalOut r.frames }

theorem Req.ren_headers (ρ : Renaming) (r : Req) : (r.ren ρ).headers = r.headers := rfl

/-- A queue entry with another request. -/
def Entry.ren (g : Req → Req) (e : Entry) : Entry := (g e.1, e.2)

/-- Queue managers whose operations commute with changes of the requests that keep the headers. -/
class BareQM (Q : Type) [QueueManager Q] where
  ren : (Req → Req) → Q → Q
  /-- condition on the sorting algorithm -/
  okSort : Sorter → Prop
  empty : ∀ g, ren g QueueManager.empty = QueueManager.empty
  addWorker : ∀ {srt}, okSort srt → ∀ (g : Req → Req) (_ : ∀ r, (g r).headers = r.headers) (q : Q) (w : Worker) (c : Option Req),
    QueueManager.addWorker srt (ren g q) w (c.map g)
      = (QueueManager.addWorker srt q w c).map (fun x => (x.1.map g, ren g x.2))
  assignRequest : ∀ {srt}, okSort srt → ∀ (g : Req → Req) (_ : ∀ r, (g r).headers = r.headers) (q : Q) (w : Worker),
    QueueManager.assignRequest srt (ren g q) w
      = (QueueManager.assignRequest srt q w).map (fun x => (x.1.map g, ren g x.2))
  workerFinished : ∀ {srt}, okSort srt → ∀ (g : Req → Req) (_ : ∀ r, (g r).headers = r.headers) (q : Q) (w : Worker),
    QueueManager.workerFinished srt (ren g q) w
      = (QueueManager.workerFinished srt q w).map (fun x => (x.1.map g, ren g x.2))
  workerTerminated : ∀ (g : Req → Req) (_ : ∀ r, (g r).headers = r.headers) (q : Q) (w : Worker),
    QueueManager.workerTerminated (ren g q) w
      = (QueueManager.workerTerminated q w).map (fun x => (x.1.map g, ren g x.2))
  enqueueRequest : ∀ (g : Req → Req) (_ : ∀ r, (g r).headers = r.headers) (q : Q) (now : Int) (r : Req),
    QueueManager.enqueueRequest (ren g q) now (g r)
      = (QueueManager.enqueueRequest q now r).map (fun x => (x.1, ren g x.2))
  queuedCount : ∀ (g : Req → Req) (_ : ∀ r, (g r).headers = r.headers) (q : Q), QueueManager.queuedCount (ren g q) = QueueManager.queuedCount q
  currentRequest : ∀ (g : Req → Req) (_ : ∀ r, (g r).headers = r.headers) (q : Q) (w : Worker),
    QueueManager.currentRequest (ren g q) w
      = ((QueueManager.currentRequest q w).1.map g,
          ren g (QueueManager.currentRequest q w).2)
  workerCancelled : ∀ (g : Req → Req) (_ : ∀ r, (g r).headers = r.headers) (q : Q) (w : Worker),
    QueueManager.workerCancelled (ren g q) w
      = ((QueueManager.workerCancelled q w).1.map g,
          ren g (QueueManager.workerCancelled q w).2)

/-! ## Maps -/

variable {ρ : Renaming} {g : Req → Req}

namespace WMap
variable {V : Type}

/-- Change of the values. -/
def mapv (f : V → V) (m : WMap V) : WMap V := m.map (fun e => (e.1, f e.2))

theorem find_mapv (f : V → V) (w : Worker) (m : WMap V) : (mapv f m).find w = (m.find w).map f := by
  induction m with
  | nil => rfl
  | cons a t ih =>
    obtain ⟨x, v⟩ := a
    simp only [mapv, List.map_cons, find] at ih ⊢
    split
    · rfl
    · exact ih

theorem getD_mapv (f : V → V) (w : Worker) (d : V) (m : WMap V) (hd : f d = d) :
    (mapv f m).getD w d = f (m.getD w d) := by
  unfold getD
  rw [find_mapv]
  cases m.find w <;> simp [hd]

theorem put_mapv (f : V → V) (w : Worker) (v : V) (m : WMap V) :
    (mapv f m).put w (f v) = mapv f (m.put w v) := by
  induction m with
  | nil => rfl
  | cons a t ih =>
    obtain ⟨x, u⟩ := a
    simp only [mapv, List.map_cons, put] at ih ⊢
    split
    · rfl
    · split
      · rfl
      · rw [ih]; rfl

theorem emplace_mapv (f : V → V) (w : Worker) (v : V) (m : WMap V) :
    (mapv f m).emplace w (f v) = mapv f (m.emplace w v) := by
  induction m with
  | nil => rfl
  | cons a t ih =>
    obtain ⟨x, u⟩ := a
    simp only [mapv, List.map_cons, emplace] at ih ⊢
    split
    · rfl
    · split
      · rfl
      · rw [ih]; rfl

theorem erase_mapv (f : V → V) (w : Worker) (m : WMap V) :
    (mapv f m).erase w = mapv f (m.erase w) := by
  induction m with
  | nil => rfl
  | cons a t ih =>
    obtain ⟨x, u⟩ := a
    simp only [mapv, List.map_cons, erase] at ih ⊢
    split
    · rfl
    · rw [ih]; rfl

end WMap

/-! ## Multi-queue manager -/

namespace Multi

/-- The queues renamed. -/
def ren (g : Req → Req) (q : Multi) : Multi where
  queues := q.queues.mapv (List.map g)
  current := q.current.mapv (Option.map g)
  ring := q.ring

theorem assign_ren (q : Multi) (w : Worker) :
    (q.ren g).assignRequest w
      = ((q.assignRequest w).1.map g, (q.assignRequest w).2.ren g) := by
  unfold assignRequest
  have e : (q.ren g).queues.getD w [] = (q.queues.getD w []).map g :=
    WMap.getD_mapv _ w [] q.queues rfl
  rw [e]
  cases q.queues.getD w [] with
  | nil =>
    simp only [List.map_nil, ren, Option.map_none]
    rw [← WMap.emplace_mapv]; rfl
  | cons r t =>
    simp only [List.map_cons, ren, Option.map_some]
    rw [← WMap.put_mapv, ← WMap.put_mapv]; rfl

instance : BareQM Multi where
  ren := ren
  okSort _ := True
  empty _ := rfl
  addWorker _ g hg q w c := by
    simp only [QueueManager.addWorker, addWorker, ren, Except.map, Option.map_none]
    rw [← WMap.emplace_mapv, ← WMap.emplace_mapv]; rfl
  assignRequest _ g hg q w := by
    simp only [QueueManager.assignRequest, Except.map]
    rw [assign_ren]
  workerFinished _ g hg q w := by
    simp only [QueueManager.workerFinished, Except.map, workerFinished]
    rw [← assign_ren]
    simp only [ren]
    rw [← WMap.put_mapv]; rfl
  workerTerminated g hg q w := by
    simp only [QueueManager.workerTerminated, Except.map, workerTerminated, ren]
    rw [WMap.erase_mapv, WMap.erase_mapv, WMap.getD_mapv _ _ _ _ rfl, WMap.getD_mapv _ _ _ _ rfl]
    cases q.current.getD w none <;> simp
  enqueueRequest g hg q now r := by
    simp only [QueueManager.enqueueRequest, enqueueRequest]
    have e : (g r).headers = r.headers := hg r
    have e2 : (q.ren g).ring = q.ring := rfl
    rw [e, e2]
    cases findWorker r.headers q.ring with
    | error e => rfl
    | ok o =>
      cases o with
      | none => rfl
      | some w =>
        simp only [Except.bind_ok]
        have e3 : (q.ren g).current.getD w none = (q.current.getD w none).map g :=
          WMap.getD_mapv _ _ _ _ rfl
        have e4 : (q.ren g).queues.getD w [] = (q.queues.getD w []).map g :=
          WMap.getD_mapv _ w [] q.queues rfl
        rw [e3, e4]
        cases q.current.getD w none with
        | none =>
          simp only [Option.map_none, Except.pure_eq_ok, Except.map, ren]
          rw [← WMap.put_mapv]; rfl
        | some r' =>
          simp only [Option.map_some, Except.pure_eq_ok, Except.map, ren]
          rw [← WMap.put_mapv]; simp
  queuedCount g hg q := by
    simp only [QueueManager.queuedCount, queuedCount, ren, WMap.mapv, List.map_map]
    congr 1
    refine List.map_congr_left ?_
    intro e _
    simp
  currentRequest g hg q w := by
    simp only [QueueManager.currentRequest, currentRequest, ren]
    rw [← WMap.emplace_mapv, WMap.getD_mapv _ _ _ _ rfl]; rfl
  workerCancelled g hg q w := by
    simp only [QueueManager.workerCancelled, workerCancelled, ren]
    rw [← WMap.put_mapv, WMap.getD_mapv _ _ _ _ rfl]; rfl

end Multi

/-! ## Single-queue manager -/

/-- The sorting algorithm does not look at the requests: `std::sort` only compares arrival times. -/
def Sorter.Blind (srt : Sorter) : Prop :=
  ∀ (g : Req → Req) (l : List Entry),
    srt.sort (l.map (fun e => (g e.1, e.2))) = (srt.sort l).map (fun e => (g e.1, e.2))

namespace Single

/-- The queue renamed. -/
def ren (g : Req → Req) (q : Single) : Single where
  jobs := q.jobs.map (Entry.ren g)
  current := q.current.mapv (Option.map g)
  workers := q.workers

theorem takeFirst_ren (hg : ∀ r, (g r).headers = r.headers) (w : Worker) (l : List Entry) :
    takeFirst w (l.map (Entry.ren g))
      = (takeFirst w l).map (fun x => (x.1.map g, x.2.map (Entry.ren g))) := by
  induction l with
  | nil => rfl
  | cons e t ih =>
    simp only [List.map_cons, takeFirst]
    have h : (Entry.ren g e).1.headers = e.1.headers := hg _
    rw [h]
    cases w.checkHeaders e.1.headers with
    | error x => rfl
    | ok b =>
      cases b with
      | true => rfl
      | false =>
        simp only [Except.bind_ok, Bool.false_eq_true, if_false, ih]
        cases takeFirst w t with
        | error x => rfl
        | ok x => rfl

theorem assign_ren {srt : Sorter} (hs : srt.Blind) (hg : ∀ r, (g r).headers = r.headers) (q : Single) (w : Worker) :
    (q.ren g).assignRequest srt w
      = (q.assignRequest srt w).map (fun x => (x.1.map g, (x.2.ren g))) := by
  unfold assignRequest
  have e : srt.sort (q.ren g).jobs = (srt.sort q.jobs).map (Entry.ren g) := hs _ _
  simp only [e, takeFirst_ren hg]
  cases takeFirst w (srt.sort q.jobs) with
  | error x => rfl
  | ok x =>
    obtain ⟨r, rest⟩ := x
    cases r with
    | none =>
      simp only [Except.map, Except.bind_ok, Option.map_none, Except.pure_eq_ok, ren]
      rw [← WMap.put_mapv]; rfl
    | some r =>
      simp only [Except.map, Except.bind_ok, Option.map_some, Except.pure_eq_ok, ren]
      rw [← WMap.put_mapv]; rfl

theorem isAssignable_ren (hg : ∀ r, (g r).headers = r.headers) (r : Req) (ws : List Worker) :
    isAssignable (g r) ws = isAssignable r ws := by
  induction ws with
  | nil => rfl
  | cons w t ih =>
    simp only [isAssignable, ih, hg]

theorem splitJobs_ren (hg : ∀ r, (g r).headers = r.headers) (ws : List Worker) (l : List Entry) :
    splitJobs ws (l.map (Entry.ren g))
      = (splitJobs ws l).map (fun x => (x.1.map g, x.2.map (Entry.ren g))) := by
  induction l with
  | nil => rfl
  | cons e t ih =>
    simp only [List.map_cons, splitJobs, ih]
    have h : isAssignable (Entry.ren g e).1 ws = isAssignable e.1 ws := isAssignable_ren hg _ _
    rw [h]
    cases isAssignable e.1 ws with
    | error x => rfl
    | ok b =>
      cases splitJobs ws t with
      | error x => rfl
      | ok x => cases b <;> rfl

theorem select_ren (hg : ∀ r, (g r).headers = r.headers) (r : Req) (m : WMap (Option Req)) :
    select (g r) (m.mapv (Option.map g)) = select r m := by
  induction m with
  | nil => rfl
  | cons a t ih =>
    obtain ⟨w, c⟩ := a
    simp only [WMap.mapv, List.map_cons] at ih ⊢
    cases c with
    | some r' => simp only [Option.map_some, select, ih]
    | none => simp only [Option.map_none, select, ih, hg]

instance : BareQM Single where
  ren := ren
  okSort := Sorter.Blind
  empty _ := rfl
  addWorker := by
    intro srt hs g hg q w c
    simp only [QueueManager.addWorker, addWorker]
    cases c with
    | some r =>
      simp only [Option.map_some, Except.map, ren]
      rw [← WMap.put_mapv]; rfl
    | none =>
      simp only [Option.map_none]
      rw [← assign_ren hs hg]
      simp only [ren]
      rw [← WMap.put_mapv]; rfl
  assignRequest := fun hs g hg q w => assign_ren hs hg q w
  workerFinished := fun hs g hg q w => assign_ren hs hg q w
  workerTerminated g hg q w := by
    simp only [QueueManager.workerTerminated, workerTerminated, ren, splitJobs_ren hg]
    cases splitJobs (q.workers.filter (fun x => x.addr ≠ w.addr)) q.jobs with
    | error x => rfl
    | ok x =>
      simp only [Except.map, Except.bind_ok, Except.pure_eq_ok]
      rw [WMap.erase_mapv, WMap.getD_mapv _ _ _ _ rfl]
      cases q.current.getD w none <;> simp
  enqueueRequest g hg q now r := by
    simp only [QueueManager.enqueueRequest, enqueueRequest, ren, select_ren hg, isAssignable_ren hg]
    cases select r q.current with
    | error x => rfl
    | ok o =>
      cases o with
      | some w =>
        simp only [Except.map, Except.bind_ok, Except.pure_eq_ok]
        rw [← WMap.put_mapv]; rfl
      | none =>
        simp only [Except.bind_ok]
        cases isAssignable r q.workers with
        | error x => rfl
        | ok b => cases b <;> simp [Except.map, Except.bind_ok, Entry.ren]
  queuedCount g hg q := by simp [QueueManager.queuedCount, ren]
  currentRequest g hg q w := by
    simp only [QueueManager.currentRequest, currentRequest, ren]
    rw [← WMap.emplace_mapv, WMap.getD_mapv _ _ _ _ rfl]; rfl
  workerCancelled g hg q w := by
    simp only [QueueManager.workerCancelled, workerCancelled, ren]
    rw [← WMap.put_mapv, WMap.getD_mapv _ _ _ _ rfl]; rfl

end Single

/-! ## The handler -/

variable {Q : Type} [QueueManager Q] [BareQM Q]

/-- The state renamed, with the messages sent so far. -/
def HState.ren (ρ : Renaming) (s : HState Q) : HState Q :=
  { s with queue := BareQM.ren (Req.ren ρ) s.queue, outs := s.outs.map ρ.out }

/-- The result renamed. -/
def renRes (ρ : Renaming) {α : Type} (f : α → α) : EStateM.Result Err (HState Q) α →
    EStateM.Result Err (HState Q) α
  | .ok a s => .ok (f a) (s.ren ρ)
  | .error e s => .error e (s.ren ρ)

/-- `y` is what becomes of `x` under the renaming. -/
def Forgets (ρ : Renaming) {α : Type} (f : α → α) (x y : HM Q α) : Prop := ∀ s, y (s.ren ρ) = renRes ρ f (x s)

theorem Forgets.bind {α β : Type} {f : α → α} {g : β → β} {x y : HM Q α} {k l : α → HM Q β}
    (h : Forgets ρ f x y) (hk : ∀ a, Forgets ρ g (k a) (l (f a))) :
    Forgets ρ g (x >>= k) (y >>= l) := by
  intro s
  show EStateM.bind y l (s.ren ρ) = renRes ρ g (EStateM.bind x k s)
  simp only [EStateM.bind, h s]
  cases x s with
  | ok a s' => exact hk a s'
  | error e s' => rfl

theorem Forgets.pure {α : Type} {f : α → α} (a : α) :
    Forgets (Q := Q) ρ f (pure a) (pure (f a)) := fun _ => rfl

theorem Forgets.unit : Forgets (Q := Q) ρ id (Pure.pure ()) (Pure.pure ()) := fun _ => rfl

theorem Forgets.raise {α : Type} {f : α → α} (e : Exn) :
    Forgets (Q := Q) ρ f (Broker.raise e) (Broker.raise e) := fun _ => rfl

theorem Forgets.undef {α : Type} {f : α → α} (u : UB) :
    Forgets (Q := Q) ρ f (Broker.undef u) (Broker.undef u) := fun _ => rfl

theorem Forgets.get : Forgets (Q := Q) ρ (HState.ren ρ) MonadState.get MonadState.get := fun _ => rfl

theorem Forgets.set {s t : HState Q} (h : t = (s.ren ρ)) :
    Forgets (Q := Q) (α := PUnit) ρ id (MonadStateOf.set s) (MonadStateOf.set t) := by
  subst h; exact fun _ => rfl

theorem Forgets.modify {f g : HState Q → HState Q} (h : ∀ s, g (s.ren ρ) = ((f s).ren ρ)) :
    Forgets (Q := Q) (α := PUnit) ρ id (_root_.modify f) (_root_.modify g) := by
  intro s
  show EStateM.Result.ok PUnit.unit (g (s.ren ρ)) = .ok PUnit.unit ((f s).ren ρ)
  rw [h]

theorem Forgets.liftE {α : Type} {f : α → α} {x y : Except Exn α} (h : y = x.map f) :
    Forgets (Q := Q) ρ f (Broker.liftE x) (Broker.liftE y) := by
  subst h
  cases x <;> exact fun _ => rfl

theorem Forgets.ite {α : Type} {f : α → α} {c : Prop} [Decidable c] {x x' y y' : HM Q α}
    (h : Forgets ρ f x y) (h' : Forgets ρ f x' y') :
    Forgets ρ f (if c then x else x') (if c then y else y') := by
  split <;> assumption

theorem Forgets.respond {key identity key' identity' : String} {data data' : List String}
    (h : ρ.out ⟨key, identity, data⟩ = ⟨key', identity', data'⟩) :
    Forgets (Q := Q) ρ id (Broker.respond key identity data)
      (Broker.respond key' identity' data') := by
  refine Forgets.modify (fun s => ?_)
  simp only [HState.ren, List.map_append, List.map_cons, List.map_nil, h]

theorem out_client (i : String) (d : List String) :
    ρ.out ⟨keyClients, i, d⟩ = ⟨keyClients, ρ.client i, d⟩ := by
  simp [Renaming.out, keyClients]

theorem out_worker (i : String) (d : List String) :
    ρ.out ⟨keyWorkers, i, d⟩ = ⟨keyWorkers, i, ρ.evalOut d⟩ := by
  simp [Renaming.out, keyWorkers]

theorem out_monitor (i : String) (d : List String) :
    ρ.out ⟨keyMonitor, i, d⟩ = ⟨keyMonitor, i, ρ.first d⟩ := by
  simp [Renaming.out, keyMonitor]

theorem out_notifier (i : String) (d : List String) :
    ρ.out ⟨keyNotifier, i, d⟩ = ⟨keyNotifier, i, ρ.note d⟩ := by
  simp [Renaming.out, keyNotifier]

theorem Forgets.client (i : String) (d : List String) :
    Forgets (Q := Q) ρ id (Broker.respond keyClients i d)
      (Broker.respond keyClients (ρ.client i) d) := Forgets.respond (out_client i d)

theorem Forgets.monitor (j t : String) :
    Forgets (Q := Q) ρ id (notifyMonitor j t) (notifyMonitor (ρ.job j) t) :=
  Forgets.respond (out_monitor _ _)

theorem Forgets.rejected (j t : String) :
    Forgets (Q := Q) ρ id (notifyRejected j t) (notifyRejected (ρ.job j) t) :=
  Forgets.respond (out_notifier _ _)

theorem Forgets.failed (j t : String) :
    Forgets (Q := Q) ρ id (notifyFailed j t) (notifyFailed (ρ.job j) t) :=
  Forgets.respond (out_notifier _ _)

theorem Forgets.done (j : String) :
    Forgets (Q := Q) ρ id (notifyDone j) (notifyDone (ρ.job j)) :=
  Forgets.respond (out_notifier _ _)

theorem Forgets.error (t : String) :
    Forgets (Q := Q) ρ id (notifyError t) (notifyError t) :=
  Forgets.respond (out_notifier _ _)

theorem forgets_send (w : Worker) (r : Req) :
    Forgets (Q := Q) ρ id (sendRequest w r) (sendRequest w (r.ren ρ)) :=
  Forgets.respond (out_worker _ _)

theorem forgets_sendIf (w : Worker) (r : Option Req) :
    Forgets (Q := Q) ρ id (sendIfSome w r) (sendIfSome w (r.map (Req.ren ρ))) := by
  cases r with
  | none => exact Forgets.unit
  | some r => exact forgets_send w r

theorem forgets_check (cfg : HConfig) (r : Req) (t : String) :
    Forgets (Q := Q) ρ id (checkFailureCount cfg r t) (checkFailureCount cfg (r.ren ρ) t) := by
  unfold checkFailureCount
  refine Forgets.get.bind fun s => ?_
  have e1 : (s.ren ρ).fc = s.fc := rfl
  have e2 : (r.ren ρ).rid = r.rid := rfl
  rw [e1, e2]
  refine Forgets.ite ?_ (fun _ => rfl)
  refine (Forgets.failed _ _).bind fun _ => ?_
  exact (Forgets.monitor _ _).bind fun _ => fun _ => rfl

theorem forgets_qAddWorker {env : Env} (he : BareQM.okSort Q env.srt) (w : Worker)
    (c : Option Req) :
    Forgets (Q := Q) ρ (Option.map (Req.ren ρ)) (qAddWorker env w c)
      (qAddWorker env w (c.map (Req.ren ρ))) := by
  unfold qAddWorker
  refine Forgets.get.bind fun s => ?_
  refine (Forgets.liftE (BareQM.addWorker he _ (Req.ren_headers ρ) _ _ _)).bind fun x => ?_
  exact Forgets.bind (Forgets.modify (fun _ => rfl)) fun _ => fun _ => rfl

theorem forgets_qAssign {env : Env} (he : BareQM.okSort Q env.srt) (w : Worker) :
    Forgets (Q := Q) ρ (Option.map (Req.ren ρ)) (qAssign env w) (qAssign env w) := by
  unfold qAssign
  refine Forgets.get.bind fun s => ?_
  refine (Forgets.liftE (BareQM.assignRequest he _ (Req.ren_headers ρ) _ _)).bind fun x => ?_
  exact Forgets.bind (Forgets.modify (fun _ => rfl)) fun _ => fun _ => rfl

theorem forgets_qFinished {env : Env} (he : BareQM.okSort Q env.srt) (w : Worker) :
    Forgets (Q := Q) ρ (Option.map (Req.ren ρ)) (qFinished env w) (qFinished env w) := by
  unfold qFinished
  refine Forgets.get.bind fun s => ?_
  refine (Forgets.liftE (BareQM.workerFinished he _ (Req.ren_headers ρ) _ _)).bind fun x => ?_
  exact Forgets.bind (Forgets.modify (fun _ => rfl)) fun _ => fun _ => rfl

theorem forgets_qTerminated (w : Worker) :
    Forgets (Q := Q) ρ (List.map (Req.ren ρ)) (qTerminated w) (qTerminated w) := by
  unfold qTerminated
  refine Forgets.get.bind fun s => ?_
  refine (Forgets.liftE (BareQM.workerTerminated _ (Req.ren_headers ρ) _ _)).bind fun x => ?_
  exact Forgets.bind (Forgets.modify (fun _ => rfl)) fun _ => fun _ => rfl

theorem forgets_qEnqueue (env : Env) (r : Req) :
    Forgets (Q := Q) ρ id (qEnqueue env r) (qEnqueue env (r.ren ρ)) := by
  unfold qEnqueue
  refine Forgets.get.bind fun s => ?_
  refine (Forgets.liftE (BareQM.enqueueRequest _ (Req.ren_headers ρ) _ _ _)).bind fun x => ?_
  exact Forgets.bind (Forgets.modify (fun _ => rfl)) fun _ => fun _ => rfl

theorem forgets_qCurrent (w : Worker) :
    Forgets (Q := Q) ρ (Option.map (Req.ren ρ)) (qCurrent w) (qCurrent w) := by
  unfold qCurrent
  refine Forgets.get.bind fun s => ?_
  have e : (s.ren ρ).queue = BareQM.ren (Req.ren ρ) s.queue := rfl
  rw [e, BareQM.currentRequest _ (Req.ren_headers ρ)]
  exact Forgets.bind (Forgets.modify (fun _ => rfl)) fun _ => fun _ => rfl

theorem forgets_qCancelled (w : Worker) :
    Forgets (Q := Q) ρ (Option.map (Req.ren ρ)) (qCancelled w) (qCancelled w) := by
  unfold qCancelled
  refine Forgets.get.bind fun s => ?_
  have e : (s.ren ρ).queue = BareQM.ren (Req.ren ρ) s.queue := rfl
  rw [e, BareQM.workerCancelled _ (Req.ren_headers ρ)]
  exact Forgets.bind (Forgets.modify (fun _ => rfl)) fun _ => fun _ => rfl

theorem forgets_reassign (env : Env) (r : Req) :
    Forgets (Q := Q) ρ id (reassignRequest env r) (reassignRequest env (r.ren ρ)) := by
  unfold reassignRequest
  refine (forgets_qEnqueue env r).bind fun res => ?_
  refine Forgets.ite ?_ ?_
  · dsimp only [id]
    cases res.assignedTo with
    | none => exact fun _ => rfl
    | some w => exact (forgets_send w r).bind fun _ => fun _ => rfl
  · exact (Forgets.monitor _ _).bind fun _ => fun _ => rfl

/-! ### Client commands -/

theorem forgets_submit (env : Env) (i j : String) (hs : Headers) (md : Metadata)
    (ex : List String) :
    Forgets (Q := Q) ρ id (submit env i j hs md ex) 
      (submit env (ρ.client i) (ρ.job j) hs [] (ρ.payload ex)) := by
  unfold submit
  refine Forgets.get.bind fun s => ?_
  refine (Forgets.set rfl).bind fun _ => ?_
  have e : Req.full (s.ren ρ).nextRid hs [] (ρ.job j) (ρ.payload ex)
      = (Req.full s.nextRid hs md j ex).ren ρ := rfl
  rw [e]
  refine (forgets_qEnqueue env _).bind fun res => ?_
  refine Forgets.ite ?_ ?_
  · dsimp only [id]
    cases res.assignedTo with
    | none =>
      exact Forgets.client _ _
    | some w => exact Forgets.bind (forgets_send w _) fun _ => Forgets.client _ _
  · exact Forgets.bind (Forgets.client _ _) fun _ => Forgets.monitor _ _

/-- `processEval` with the metadata dropped. -/
def bareEval (env : Env) (identity : String) (message : List String) : HM Q Unit := do
  respond keyClients identity ["ack"]
  match message[1]? with
  | none => raise .outOfRange
  | some jobId =>
    match evalHeaders (message.drop 2) [] [] with
    | .error u => undef u
    | .ok none => pure ()
    | .ok (some (headers, _, additional)) => do
      let s ← get
      if s.frozen then respond keyClients identity ["reject", "The broker is frozen."]
      else submit env identity jobId headers [] additional

theorem evalHeaders_ren (ρ : Renaming) (fs : List String) (hs : Headers) (md : Metadata) :
    evalHeaders (ρ.afterHeaders fs) hs md
      = (evalHeaders fs hs md).map (Option.map (fun x => (x.1, x.2.1, ρ.payload x.2.2))) := by
  induction fs generalizing hs md with
  | nil => rfl
  | cons f rest ih =>
    simp only [Renaming.afterHeaders]
    by_cases hf : f = ""
    · simp only [hf, if_true, evalHeaders]; rfl
    · rw [if_neg hf]
      cases rest with
      | nil => simp only [Renaming.afterHeaders, evalHeaders, if_neg hf]; rfl
      | cons g t =>
        obtain ⟨g', t', e⟩ : ∃ g' t', ρ.afterHeaders (g :: t) = g' :: t' := by
          simp only [Renaming.afterHeaders]; split <;> exact ⟨_, _, rfl⟩
        rw [e] at ih ⊢
        simp only [evalHeaders, if_neg hf] at ih ⊢
        split
        · exact ih _ _
        · exact ih _ _

theorem forgets_eval (env : Env) (i : String) (m : List String) :
    Forgets (Q := Q) ρ id (processEval env i ("eval" :: m))
      (bareEval env (ρ.client i) (ρ.fromClient ("eval" :: m))) := by
  unfold processEval bareEval
  refine (Forgets.client _ _).bind fun _ => ?_
  cases m with
  | nil => exact Forgets.raise _
  | cons j fs =>
    simp only [Renaming.fromClient, List.getElem?_cons_succ, List.getElem?_cons_zero,
      List.drop_succ_cons, List.drop_zero, evalHeaders_ren]
    cases evalHeaders fs [] [] with
    | error u => exact Forgets.undef _
    | ok o =>
      cases o with
      | none => exact Forgets.unit
      | some x =>
        obtain ⟨hs, md, ex⟩ := x
        simp only [Except.map, Option.map_some]
        refine Forgets.get.bind fun s => ?_
        exact Forgets.ite (Forgets.client _ _) (forgets_submit _ _ _ _ _ _)

theorem forgets_stats (i : String) :
    Forgets (Q := Q) ρ id (processStats i) (processStats (ρ.client i)) := by
  unfold processStats
  refine Forgets.get.bind fun s => ?_
  exact Forgets.client _ _

theorem forgets_freeze (i : String) :
    Forgets (Q := Q) ρ id (processFreeze i) (processFreeze (ρ.client i)) := by
  unfold processFreeze
  exact Forgets.bind (Forgets.modify (fun _ => rfl)) fun _ => Forgets.client _ _

theorem forgets_unfreeze (i : String) :
    Forgets (Q := Q) ρ id (processUnfreeze i) (processUnfreeze (ρ.client i)) := by
  unfold processUnfreeze
  exact Forgets.bind (Forgets.modify (fun _ => rfl)) fun _ => Forgets.client _ _

/-! ### Worker commands -/

theorem frameKey_jobFrame (ρ : Renaming) (f : String) :
    Spec.frameKey (ρ.jobFrame f) = Spec.frameKey f := by
  unfold Renaming.jobFrame
  split
  · rename_i h
    rw [h]
    exact frameKey_encode (k := "current_job") (by decide)
  · rfl

theorem initExtra_ren (ρ : Renaming) (fs : List String) (d : String) (j : Option String) :
    initExtra (fs.map ρ.jobFrame) d (j.map ρ.job)
      = ((initExtra fs d j).1, (initExtra fs d j).2.map ρ.job) := by
  induction fs generalizing d j with
  | nil => rfl
  | cons f rest ih =>
    simp only [List.map_cons, initExtra, splitHeader_eq, frameKey_jobFrame]
    by_cases h1 : Spec.frameKey f = "description"
    · have h : ρ.jobFrame f = f := by
        unfold Renaming.jobFrame
        rw [if_neg (by rw [h1]; decide)]
      simp only [h1, if_true, h]
      exact ih _ _
    · simp only [if_neg h1]
      by_cases h2 : Spec.frameKey f = "current_job"
      · have h : Spec.frameValue (ρ.jobFrame f) = ρ.job (Spec.frameValue f) := by
          unfold Renaming.jobFrame
          rw [if_pos h2]
          exact frameValue_encode (k := "current_job") (by decide)
        simp only [h2, if_true, h]
        exact ih d (some (Spec.frameValue f))
      · simp only [if_neg h2]
        exact ih _ _

theorem initHeaders_ren (ρ : Renaming) (fs : List String) (hs : Headers) :
    initHeaders (ρ.afterGroup fs) hs
      = ((initHeaders fs hs).1, (initHeaders fs hs).2.map ρ.jobFrame) := by
  induction fs generalizing hs with
  | nil => rfl
  | cons f rest ih =>
    unfold Renaming.afterGroup at ih ⊢
    by_cases h : f = ""
    · subst h
      have e : ρ.jobFrame "" = "" := by
        unfold Renaming.jobFrame
        rw [if_neg (by decide)]
      simp [List.dropWhile_cons, initHeaders, e]
    · have h' : (f != "") = true := by simpa using h
      simp only [List.takeWhile_cons, List.dropWhile_cons, h', if_true, List.cons_append,
        initHeaders, if_neg h, ih]

theorem forgets_register {env : Env} (he : BareQM.okSort Q env.srt) (i g : String) (hs : Headers)
    (ex : List String) :
    Forgets (Q := Q) ρ id (registerWorker env i g hs ex)
      (registerWorker env i g hs (ex.map ρ.jobFrame)) := by
  unfold registerWorker
  refine Forgets.get.bind fun s => ?_
  have e := initExtra_ren ρ ex "" none
  rw [Option.map_none] at e
  rw [e]
  cases initExtra ex "" none with
  | mk d j =>
    dsimp only
    have e0 : (s.ren ρ).addrs = s.addrs := rfl
    have e1 : (s.ren ρ).allocs = s.allocs := rfl
    rw [e0, e1]
    refine (Forgets.liftE (f := id) (by
      cases Worker.create (env.alloc s.allocs s.addrs) i g hs d <;> rfl)).bind fun w => ?_
    refine (Forgets.set rfl).bind fun _ => ?_
    have e : Option.map (Req.incomplete (s.ren ρ).nextRid) (j.map ρ.job)
        = (Option.map (Req.incomplete s.nextRid) j).map (Req.ren ρ) := by
      cases j <;> rfl
    rw [e]
    refine (forgets_qAddWorker he w _).bind fun o => ?_
    cases o with
    | none => exact Forgets.modify (fun _ => rfl)
    | some r => exact Forgets.bind (forgets_send w r) fun _ => Forgets.modify (fun _ => rfl)

theorem forgets_init {env : Env} (he : BareQM.okSort Q env.srt) (i : String) (m : List String) :
    Forgets (Q := Q) ρ id (processInit env i ("init" :: m))
      (processInit env i (ρ.fromWorker ("init" :: m))) := by
  unfold processInit
  match m with
  | [] => exact Forgets.unit
  | g :: rest =>
    simp only [Renaming.fromWorker, initHeaders_ren]
    refine Forgets.get.bind fun s => ?_
    have e : (s.ren ρ).workers = s.workers := rfl
    rw [e]
    cases regFind i s.workers with
    | none => exact forgets_register he _ _ _ _
    | some w =>
      refine Forgets.ite Forgets.unit ?_
      exact Forgets.bind (Forgets.error _) fun _ => forgets_register he _ _ _ _

theorem forgets_bump (r : Req) :
    Forgets (Q := Q) ρ id (bumpCount r) (bumpCount (r.ren ρ)) := Forgets.modify (fun _ => rfl)

theorem forgets_countFailed : Forgets (Q := Q) ρ id countFailed countFailed :=
  Forgets.modify (fun _ => rfl)

theorem forgets_countEvaluated : Forgets (Q := Q) ρ id countEvaluated countEvaluated :=
  Forgets.modify (fun _ => rfl)

theorem forgets_doneOk {env : Env} (he : BareQM.okSort Q env.srt) (w : Worker) (j : String) :
    Forgets (Q := Q) ρ id (doneOk env w j) (doneOk env w (ρ.job j)) := by
  unfold doneOk
  refine Forgets.bind (Forgets.done _) fun _ => ?_
  refine Forgets.bind (forgets_qFinished he w) fun o => ?_
  exact Forgets.bind (forgets_sendIf w o) fun _ => forgets_countEvaluated

theorem forgets_doneInternal (cfg : HConfig) {env : Env} (he : BareQM.okSort Q env.srt)
    (w : Worker) (t : String) :
    Forgets (Q := Q) ρ id (doneInternal cfg env w t) (doneInternal cfg env w t) := by
  unfold doneInternal
  refine Forgets.bind (forgets_qCancelled w) fun o => ?_
  cases o with
  | none => exact Forgets.undef _
  | some r =>
    simp only [Option.map_some]
    refine Forgets.bind (forgets_bump r) fun _ => ?_
    have e : (r.ren ρ).complete = r.complete := rfl
    rw [e]
    refine Forgets.ite ?_ ?_
    · exact Forgets.bind (Forgets.rejected _ _) fun _ => forgets_countFailed
    · refine Forgets.bind (forgets_check cfg r t) fun b => ?_
      refine Forgets.ite ?_ ?_
      · refine Forgets.bind (forgets_reassign env r) fun _ => ?_
        exact forgets_countFailed
      · refine Forgets.bind (forgets_qAssign he w) fun o => ?_
        exact Forgets.bind (forgets_sendIf w o) fun _ => forgets_countFailed

theorem forgets_doneFailed {env : Env} (he : BareQM.okSort Q env.srt) (w : Worker)
    (j t : String) :
    Forgets (Q := Q) ρ id (doneFailed env w j t)
      (doneFailed env w (ρ.job j) t) := by
  unfold doneFailed
  refine Forgets.bind (Forgets.failed _ _) fun _ => ?_
  refine Forgets.bind (forgets_qCancelled w) fun o => ?_
  cases o with
  | none => exact Forgets.undef _
  | some r =>
    simp only [Option.map_some]
    refine Forgets.bind (forgets_bump r) fun _ => ?_
    refine Forgets.bind (forgets_qAssign he w) fun o => ?_
    exact Forgets.bind (forgets_sendIf w o) fun _ => forgets_countFailed

theorem forgets_current_unit (w : Worker) :
    Forgets (Q := Q) ρ id (do let _ ← qCurrent w) (do let _ ← qCurrent w) :=
  Forgets.bind (forgets_qCurrent w) fun _ => Forgets.unit

theorem forgets_done (cfg : HConfig) {env : Env} (he : BareQM.okSort Q env.srt) (i : String)
    (m : List String) :
    Forgets (Q := Q) ρ id (processDone cfg env i ("done" :: m))
      (processDone cfg env i (ρ.fromWorker ("done" :: m))) := by
  unfold processDone
  refine Forgets.bind Forgets.get fun s => ?_
  have e : (s.ren ρ).workers = s.workers := rfl
  rw [e]
  cases regFind i s.workers with
  | none => exact Forgets.unit
  | some w =>
    dsimp only
    match m with
    | [] => exact Forgets.unit
    | [_] => exact Forgets.unit
    | j :: st :: rest =>
      simp only [Renaming.fromWorker]
      refine Forgets.bind (forgets_qCurrent w) fun o => ?_
      cases o with
      | none => exact Forgets.undef _
      | some r =>
        simp only [Option.map_some]
        have e : (ρ.job j ≠ (r.ren ρ).jobId) = (j ≠ r.jobId) :=
          propext ⟨fun h h' => h (congrArg ρ.job h'), fun h h' => h (ρ.job_inj h')⟩
        simp only [e]
        refine Forgets.ite Forgets.unit (Forgets.ite ?_ (Forgets.ite ?_ (Forgets.ite ?_ ?_)))
        · exact Forgets.bind (forgets_doneOk he w j) fun _ => forgets_current_unit w
        · match rest with
          | [] => exact Forgets.unit
          | [t] =>
            exact Forgets.bind (forgets_doneInternal cfg he w t) fun _ => forgets_current_unit w
          | _ :: _ :: _ => exact Forgets.unit
        · match rest with
          | [] => exact Forgets.unit
          | [t] =>
            exact Forgets.bind (forgets_doneFailed he w j t) fun _ => forgets_current_unit w
          | _ :: _ :: _ => exact Forgets.unit
        · exact forgets_current_unit w

theorem forgets_ping (i : String) : Forgets (Q := Q) ρ id (processPing i) (processPing i) := by
  unfold processPing
  refine Forgets.bind Forgets.get fun s => ?_
  have e : (s.ren ρ).workers = s.workers := rfl
  rw [e]
  cases regFind i s.workers <;> exact Forgets.respond (out_worker _ _)

theorem forgets_progress (m : List String) :
    Forgets (Q := Q) ρ id (processProgress ("progress" :: m))
      (processProgress (ρ.fromWorker ("progress" :: m))) := by
  cases m with
  | nil => exact Forgets.respond (out_monitor _ _)
  | cons j t => exact Forgets.respond (out_monitor _ _)

theorem fromWorker_other (ρ : Renaming) {c : String} (m : List String) (h1 : c ≠ "init")
    (h2 : c ≠ "done") (h3 : c ≠ "progress") : ρ.fromWorker (c :: m) = c :: m := by
  unfold Renaming.fromWorker
  split
  · rename_i h; cases h; exact absurd rfl h1
  · rename_i h; cases h; exact absurd rfl h2
  · rename_i h; cases h; exact absurd rfl h3
  · rfl

theorem fromWorker_head (ρ : Renaming) (c : String) (m : List String) :
    ∃ t, ρ.fromWorker (c :: m) = c :: t := by
  unfold Renaming.fromWorker
  split
  · rename_i h; cases h; exact ⟨_, rfl⟩
  · rename_i h; cases h; exact ⟨_, rfl⟩
  · rename_i h; cases h; exact ⟨_, rfl⟩
  · exact ⟨_, rfl⟩

theorem fromClient_other (ρ : Renaming) {c : String} (m : List String) (h1 : c ≠ "eval") :
    ρ.fromClient (c :: m) = c :: m := by
  unfold Renaming.fromClient
  split
  · rename_i h; cases h; exact absurd rfl h1
  · rfl

theorem fromClient_head (ρ : Renaming) (c : String) (m : List String) :
    ∃ t, ρ.fromClient (c :: m) = c :: t := by
  unfold Renaming.fromClient
  split
  · rename_i h; cases h; exact ⟨_, rfl⟩
  · exact ⟨_, rfl⟩

theorem forgets_worker (cfg : HConfig) {env : Env} (he : BareQM.okSort Q env.srt) (c i : String)
    (m : List String) :
    Forgets (Q := Q) ρ id (workerCommand cfg env c i (c :: m))
      (workerCommand cfg env c i (ρ.fromWorker (c :: m))) := by
  unfold workerCommand
  by_cases h1 : c = "init"
  · subst h1; exact forgets_init he i m
  · by_cases h2 : c = "done"
    · subst h2; exact forgets_done cfg he i m
    · simp only [if_neg h1, if_neg h2]
      refine Forgets.ite (forgets_ping i) ?_
      by_cases h3 : c = "progress"
      · subst h3; exact forgets_progress m
      · simp only [if_neg h3]; exact Forgets.unit

/-! ### Timer -/

/-- The body of `tickWorker` with the arithmetic abstracted. -/
def tickBody (cfg : HConfig) (time : Int) (dec : Nat → Nat) (zero : Nat → Bool) (w : Worker) :
    HM Q Bool := do
  let s ← get
  let t := s.timers.getD w 0 + time
  if t > cfg.pingInterval then do
    let l := dec (s.live w.addr)
    set { s with live := upd s.live w.addr l, timers := s.timers.put w 0 }
    return zero l
  else do
    set { s with timers := s.timers.put w t }
    return false

theorem forgets_tickBody (cfg : HConfig) (t : Int) (dec : Nat → Nat) (zero : Nat → Bool)
    (w : Worker) :
    Forgets (Q := Q) ρ id (tickBody cfg t dec zero w) (tickBody cfg t dec zero w) := by
  unfold tickBody
  refine Forgets.bind Forgets.get fun s => ?_
  refine Forgets.ite ?_ ?_
  · exact Forgets.bind (Forgets.set rfl) fun _ => Forgets.pure (zero (dec (s.live w.addr)))
  · exact Forgets.bind (Forgets.set rfl) fun _ => Forgets.pure _

theorem forgets_tick (cfg : HConfig) (t : Int) (w : Worker) :
    Forgets (Q := Q) ρ id (tickWorker cfg t w) (tickWorker cfg t w) :=
  forgets_tickBody cfg t szDec (fun l => decide (l ≤ 0)) w

theorem forgets_ticks (cfg : HConfig) (t : Int) (ws : List Worker) :
    Forgets (Q := Q) ρ id (tickWorkers cfg t ws) (tickWorkers cfg t ws) := by
  induction ws with
  | nil => exact fun _ => rfl
  | cons w ws ih =>
    unfold tickWorkers
    refine Forgets.bind (forgets_tick cfg t w) fun b => ?_
    exact Forgets.bind ih fun r => fun _ => rfl

theorem forgets_settle (cfg : HConfig) (env : Env) (rs : List Req) :
    Forgets (Q := Q) ρ (List.map (Req.ren ρ)) (settleRequests cfg env rs)
      (settleRequests cfg env (rs.map (Req.ren ρ))) := by
  induction rs with
  | nil => exact fun _ => rfl
  | cons r rs ih =>
    unfold settleRequests
    simp only [List.map_cons]
    have e : (r.ren ρ).complete = r.complete := rfl
    rw [e]
    refine Forgets.ite ?_ ?_
    · refine Forgets.bind (Forgets.rejected _ _) fun _ => ?_
      exact Forgets.bind (Forgets.monitor _ _) fun _ => ih
    · refine Forgets.bind (forgets_check cfg r timeoutMsg) fun b => ?_
      refine Forgets.ite ?_ ih
      refine Forgets.bind (forgets_reassign env r) fun b => ?_
      refine Forgets.ite ?_ ?_
      · exact Forgets.bind (Forgets.monitor _ _) fun _ => ih
      · exact Forgets.bind ih fun _ => fun _ => rfl

theorem forgets_rejectAll (d : String) (rs : List Req) :
    Forgets (Q := Q) ρ id (rejectAll d rs) (rejectAll d (rs.map (Req.ren ρ))) := by
  induction rs with
  | nil => exact Forgets.unit
  | cons r rs ih =>
    unfold rejectAll
    exact Forgets.bind (Forgets.rejected _ _) fun _ => ih

theorem forgets_expire (cfg : HConfig) (env : Env) (w : Worker) :
    Forgets (Q := Q) ρ id (expireWorker cfg env w) (expireWorker cfg env w) := by
  unfold expireWorker
  refine Forgets.bind (Forgets.modify (fun _ => rfl)) fun _ => ?_
  refine Forgets.bind (forgets_qCurrent w) fun o => ?_
  have tail : Forgets (Q := Q) ρ id
      (do
        let requests ← qTerminated w
        let unassigned ← settleRequests cfg env requests
        rejectAll ("Worker " ++ w.getDescription ++ " dieded") unassigned)
      (do
        let requests ← qTerminated w
        let unassigned ← settleRequests cfg env requests
        rejectAll ("Worker " ++ w.getDescription ++ " dieded") unassigned) := by
    refine Forgets.bind (forgets_qTerminated w) fun rs => ?_
    exact Forgets.bind (forgets_settle cfg env rs) fun _ => forgets_rejectAll _ _
  cases o with
  | none => exact tail
  | some r => exact Forgets.bind (forgets_bump r) fun _ => tail

theorem forgets_expires (cfg : HConfig) (env : Env) (ws : List Worker) :
    Forgets (Q := Q) ρ id (expireWorkers cfg env ws) (expireWorkers cfg env ws) := by
  induction ws with
  | nil => exact Forgets.unit
  | cons w ws ih => exact Forgets.bind (forgets_expire cfg env w) fun _ => ih

theorem forgets_countIdle (ws : List Worker) :
    Forgets (Q := Q) ρ id (countIdle ws) (countIdle ws) := by
  induction ws with
  | nil => exact fun _ => rfl
  | cons w ws ih =>
    unfold countIdle
    refine Forgets.bind (forgets_qCurrent w) fun o => ?_
    refine Forgets.bind ih fun n => ?_
    cases o <;> exact fun _ => rfl

theorem forgets_gauges : Forgets (Q := Q) ρ id updateGauges updateGauges := by
  unfold updateGauges
  refine Forgets.bind Forgets.get fun s => ?_
  have e1 : (s.ren ρ).queue = BareQM.ren (Req.ren ρ) s.queue := rfl
  have e2 : (s.ren ρ).workers = s.workers := rfl
  simp only [e1, e2, BareQM.queuedCount _ (Req.ren_headers ρ)]
  exact Forgets.bind (forgets_countIdle _) fun n => Forgets.modify (fun _ => rfl)

theorem forgets_timer (cfg : HConfig) (env : Env) (d : List String) :
    Forgets (Q := Q) ρ id (processTimer cfg env d) (processTimer cfg env d) := by
  unfold processTimer
  match d with
  | [] => exact Forgets.undef _
  | f :: _ =>
    dsimp only
    refine Forgets.bind (Forgets.liftE (f := id) (by cases stoll f <;> rfl)) fun t => ?_
    refine Forgets.bind Forgets.get fun s => ?_
    refine Forgets.bind (forgets_ticks cfg t _) fun ws => ?_
    exact Forgets.bind (forgets_expires cfg env ws) fun _ => forgets_gauges

/-! ### Events -/

theorem forgets_touch (cfg : HConfig) (i : String) :
    Forgets (Q := Q) ρ id (touchWorker cfg i) (touchWorker cfg i) := by
  unfold touchWorker
  refine Forgets.bind Forgets.get fun s => ?_
  have e : (s.ren ρ).workers = s.workers := rfl
  rw [e]
  cases regFind i s.workers with
  | none => exact Forgets.unit
  | some w => exact Forgets.set rfl

/-- Client commands with the metadata dropped. -/
def bareClient (env : Env) (command identity : String) (message : List String) : HM Q Unit :=
  if command = "eval" then bareEval env identity message
  else if command = "get-runtime-stats" then processStats identity
  else if command = "freeze" then processFreeze identity
  else if command = "unfreeze" then processUnfreeze identity
  else pure ()

/-- Handling a message with the metadata dropped. -/
def bareRequest (cfg : HConfig) (env : Env) (m : Msg) : HM Q Unit := do
  if m.key = keyWorkers then do
    touchWorker cfg m.identity
    match m.data with
    | [] => raise .outOfRange
    | command :: _ => workerCommand cfg env command m.identity m.data
  else if m.key = keyClients then
    match m.data with
    | [] => raise .outOfRange
    | command :: _ => bareClient env command m.identity m.data
  else if m.key = keyTimer then processTimer cfg env m.data
  else pure ()

theorem forgets_request (cfg : HConfig) {env : Env} (he : BareQM.okSort Q env.srt) (m : Msg) :
    Forgets (Q := Q) ρ id (onRequest cfg env m) (bareRequest cfg env (ρ.inp m)) := by
  obtain ⟨k, i, d⟩ := m
  by_cases h1 : k = keyWorkers
  · subst h1
    have e : ρ.inp ⟨keyWorkers, i, d⟩ = ⟨keyWorkers, i, ρ.fromWorker d⟩ := by
      simp [Renaming.inp, keyWorkers]
    rw [e]
    simp only [onRequest, bareRequest, if_true]
    refine Forgets.bind (forgets_touch cfg _) fun _ => ?_
    cases d with
    | nil => exact Forgets.raise _
    | cons c t =>
      obtain ⟨t', e'⟩ := fromWorker_head ρ c t
      have h := forgets_worker (ρ := ρ) (Q := Q) cfg he c i t
      rw [e'] at h ⊢
      exact h
  · by_cases h2 : k = keyClients
    · subst h2
      have e : ρ.inp ⟨keyClients, i, d⟩ = ⟨keyClients, ρ.client i, ρ.fromClient d⟩ := by
        simp [Renaming.inp, keyClients]
      rw [e]
      simp only [onRequest, bareRequest, if_neg h1, if_true]
      cases d with
      | nil => exact Forgets.raise _
      | cons c t =>
        obtain ⟨t', e'⟩ := fromClient_head ρ c t
        rw [e']
        show Forgets (Q := Q) ρ id (clientCommand env c i (c :: t))
          (bareClient env c (ρ.client i) (c :: t'))
        unfold clientCommand bareClient
        by_cases h3 : c = "eval"
        · subst h3
          have h := forgets_eval (ρ := ρ) (Q := Q) env i t
          rw [e'] at h
          exact h
        · simp only [if_neg h3]
          exact Forgets.ite (forgets_stats _)
            (Forgets.ite (forgets_freeze _) (Forgets.ite (forgets_unfreeze _) Forgets.unit))
    · have e : ρ.inp ⟨k, i, d⟩ = ⟨k, i, d⟩ := by
        have h1' : k ≠ "workers" := h1
        have h2' : k ≠ "clients" := h2
        simp only [Renaming.inp, if_neg h1', if_neg h2']
      rw [e]
      simp only [onRequest, bareRequest, if_neg h1, if_neg h2]
      exact Forgets.ite (forgets_timer cfg env _) Forgets.unit

/-- Messages that are the same up to the metadata of an `eval`. -/
def SameMsg (m m' : Msg) : Prop :=
  m = m' ∨ ∃ i j hs md md' ex fs fs', m = ⟨keyClients, i, "eval" :: j :: fs⟩ ∧
    m' = ⟨keyClients, i, "eval" :: j :: fs'⟩ ∧
    evalHeaders fs [] [] = .ok (some (hs, md, ex)) ∧
    evalHeaders fs' [] [] = .ok (some (hs, md', ex))

theorem bareRequest_same {cfg : HConfig} {env : Env} {m m' : Msg} (h : SameMsg m m') :
    bareRequest (Q := Q) cfg env m = bareRequest cfg env m' := by
  rcases h with rfl | ⟨i, j, hs, md, md', ex, fs, fs', rfl, rfl, h1, h2⟩
  · rfl
  · have hk : keyClients ≠ keyWorkers := by decide
    simp only [bareRequest, if_neg hk, if_true, bareClient, bareEval]
    have e1 : ("eval" :: j :: fs)[1]? = some j := rfl
    have e2 : ("eval" :: j :: fs')[1]? = some j := rfl
    have e3 : ("eval" :: j :: fs).drop 2 = fs := rfl
    have e4 : ("eval" :: j :: fs').drop 2 = fs' := rfl
    simp only [e1, e2, e3, e4, h1, h2]

/-! ### Nothing renamed -/

theorem evalOut_id (l : List String) : Renaming.id.evalOut l = l := by
  unfold Renaming.evalOut; split <;> rfl

theorem out_id (m : Msg) : Renaming.id.out m = m := by
  have h1 : ∀ l, Renaming.id.first l = l := by intro l; cases l <;> rfl
  have h2 : ∀ l, Renaming.id.note l = l := by
    intro l; unfold Renaming.note; split <;> rfl
  unfold Renaming.out
  simp only [evalOut_id, h1, h2, ite_self]
  split <;> rfl

theorem afterHeaders_id (l : List String) : Renaming.id.afterHeaders l = l := by
  induction l with
  | nil => rfl
  | cons f t ih =>
    simp only [Renaming.afterHeaders, ih]
    split <;> rfl

theorem initExtra_id (l : List String) :
    initExtra (l.map Renaming.id.jobFrame) "" none = initExtra l "" none := by
  have h := initExtra_ren Renaming.id l "" none
  rw [Option.map_none] at h
  rw [h]
  have e : ∀ o : Option String, o.map Renaming.id.job = o := by intro o; cases o <;> rfl
  rw [e]

theorem fromClient_id (l : List String) : Renaming.id.fromClient l = l := by
  unfold Renaming.fromClient
  split
  · rw [afterHeaders_id]; rfl
  · rfl

theorem workerCommand_id (cfg : HConfig) (env : Env) (c i : String) (m : List String) :
    workerCommand (Q := Q) cfg env c i (Renaming.id.fromWorker (c :: m))
      = workerCommand cfg env c i (c :: m) := by
  by_cases h1 : c = "init"
  · subst h1
    cases m with
    | nil => rfl
    | cons g fs =>
      simp only [Renaming.fromWorker, workerCommand, if_true, processInit, initHeaders_ren,
        registerWorker, initExtra_id]
  · by_cases h2 : c = "done"
    · subst h2
      cases m <;> rfl
    · by_cases h3 : c = "progress"
      · subst h3
        cases m <;> rfl
      · rw [fromWorker_other _ _ h1 h2 h3]

theorem bareRequest_id (cfg : HConfig) (env : Env) (m : Msg) :
    bareRequest (Q := Q) cfg env (Renaming.id.inp m) = bareRequest cfg env m := by
  obtain ⟨k, i, d⟩ := m
  unfold Renaming.inp
  by_cases h1 : k = "clients"
  · subst h1
    simp only [if_true, fromClient_id]
    rfl
  · simp only [if_neg h1]
    by_cases h2 : k = "workers"
    · subst h2
      simp only [if_true]
      cases d with
      | nil => rfl
      | cons c t =>
        obtain ⟨t', e⟩ := fromWorker_head Renaming.id c t
        have hw := workerCommand_id (Q := Q) cfg env c i t
        rw [e] at hw ⊢
        have hk : ("workers" : String) = keyWorkers := rfl
        simp only [bareRequest, hk, if_true, hw]
    · simp only [if_neg h2]

/-- Steps from a state and one that is the renamed state up to metadata, on a message and one that
    is the renamed message up to metadata. -/
theorem step_ren {cfg : HConfig} {env : Env} (he : BareQM.okSort Q env.srt) {m m' : Msg}
    (h : SameMsg (ρ.inp m) m') {s t : HState Q} (hst : s.ren ρ = t.ren Renaming.id) :
    renRes ρ id (step cfg env m s) = renRes Renaming.id id (step cfg env m' t) := by
  unfold step
  rw [← forgets_request cfg he m, ← forgets_request cfg he m', bareRequest_id, bareRequest_same h]
  congr 1
  have h0 := congrArg (fun u : HState Q => { u with outs := [] }) hst
  exact h0

/-- The case without renaming. -/
theorem step_same {cfg : HConfig} {env : Env} (he : BareQM.okSort Q env.srt) {m m' : Msg}
    (h : SameMsg m m') {s t : HState Q} (hst : s.ren Renaming.id = t.ren Renaming.id) :
    renRes Renaming.id id (step cfg env m s) = renRes Renaming.id id (step cfg env m' t) := by
  unfold step
  rw [← forgets_request cfg he m, ← forgets_request cfg he m', bareRequest_id, bareRequest_id,
    bareRequest_same h]
  congr 1
  have h0 := congrArg (fun u : HState Q => { u with outs := [] }) hst
  exact h0

end Broker
