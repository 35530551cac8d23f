import Verif.Proof.Frozen
import Verif.Proof.Memory
import Verif.Proof.Skip

/-!
# Hearing from a worker

Handling a message that is not a tick commutes with resetting liveness and timer of a worker.
-/

set_option linter.unusedSectionVars false
set_option linter.unusedSimpArgs false

namespace Broker

open QueueManager

variable {Q : Type} {α β : Type}

/-! ## Timers -/

namespace WMap

/-- The timer at an address is set to zero. -/
def reset (a : Nat) (m : WMap Int) : WMap Int := m.map fun e => if e.1.addr = a then (e.1, 0) else e

theorem reset_addrs (a : Nat) (m : WMap Int) :
    (m.reset a).map (·.1.addr) = m.map (·.1.addr) := by
  simp only [reset, List.map_map]
  refine List.map_congr_left fun e _ => ?_
  simp only [Function.comp]
  split <;> rfl

theorem reset_reset (a : Nat) (m : WMap Int) : (m.reset a).reset a = m.reset a := by
  simp only [reset, List.map_map]
  refine List.map_congr_left fun e _ => ?_
  simp only [Function.comp]
  split
  · rename_i h; simp [h]
  · rename_i h; simp [h]

theorem reset_cons (a : Nat) (x : Worker) (u : Int) (m : WMap Int) :
    reset a ((x, u) :: m) = (x, if x.addr = a then 0 else u) :: m.reset a := by
  simp only [reset, List.map_cons]
  congr 1
  split <;> rfl

theorem put_reset (a : Nat) (w : Worker) (m : WMap Int) :
    (m.reset a).put w 0 = (m.put w 0).reset a := by
  induction m with
  | nil => simp [reset, put]
  | cons e t ih =>
    obtain ⟨x, u⟩ := e
    rw [reset_cons]
    unfold put
    split
    · rw [reset_cons]; simp
    · split
      · rw [reset_cons, reset_cons]; simp
      · rw [reset_cons, ih]

theorem emplace_reset (a : Nat) (w : Worker) (m : WMap Int) :
    (m.reset a).emplace w 0 = (m.emplace w 0).reset a := by
  induction m with
  | nil => simp [reset, emplace]
  | cons e t ih =>
    obtain ⟨x, u⟩ := e
    rw [reset_cons]
    unfold emplace
    split
    · rw [reset_cons]
    · split
      · rw [reset_cons, reset_cons]; simp
      · rw [reset_cons, ih]

theorem put_eq_reset {m : WMap Int} {w : Worker} (hs : m.Sorted) (hw : w ∈ m.map (·.1)) :
    m.put w 0 = m.reset w.addr := by
  induction m with
  | nil => cases hw
  | cons e t ih =>
    obtain ⟨x, u⟩ := e
    have hs' := List.pairwise_cons.1 hs
    rw [reset_cons]
    unfold put
    by_cases hx : x.addr = w.addr
    · rw [if_pos hx, if_pos hx]
      congr 1
      symm
      unfold reset
      rw [← List.map_id t, List.map_map]
      refine List.map_congr_left fun e he => ?_
      have := hs'.1 e he
      simp only at this
      simp only [Function.comp, id]
      rw [if_neg (by omega)]
    · have hm : w ∈ t.map (·.1) := by
        rcases List.mem_cons.1 hw with h | h
        · subst h; exact absurd rfl hx
        · exact h
      have hlt : ¬ w.addr < x.addr := by
        obtain ⟨e, he, rfl⟩ := List.mem_map.1 hm
        have := hs'.1 e he
        simp only at this
        omega
      rw [if_neg hx, if_neg hlt, if_neg hx, ih hs'.2 hm]

end WMap

/-- Liveness and timer of the worker object at an address are reset. -/
def HState.hear (b : Nat × Nat) (s : HState Q) : HState Q :=
  { s with live := upd s.live b.1 b.2, timers := s.timers.reset b.1 }

theorem upd_twice (f : Nat → Nat) (a : Nat) (n : Nat) : upd (upd f a n) a n = upd f a n := by
  funext x; simp only [upd]; split <;> rfl

theorem upd_swap (f : Nat → Nat) (a b : Nat) (n : Nat) :
    upd (upd f a n) b n = upd (upd f b n) a n := by
  funext x; simp only [upd]; split <;> split <;> rfl

theorem upd_swap' (f : Nat → Nat) {a b : Nat} (h : a ≠ b) (n m : Nat) :
    upd (upd f a n) b m = upd (upd f b m) a n := by
  funext x; simp only [upd]
  split <;> split <;> first | rfl | (subst_vars; exact absurd rfl h)

theorem HState.hear_hear (b : Nat × Nat) (s : HState Q) : (s.hear b).hear b = s.hear b := by
  simp only [HState.hear, upd_twice, WMap.reset_reset]

variable [QueueManager Q]

/-- The computation commutes with hearing from a worker. -/
def HComm (b : Nat × Nat) (f : HM Q α) : Prop := ∀ s, f (s.hear b) = mapRes (·.hear b) (f s)

theorem HComm.pure (b : Nat × Nat) (a : α) : HComm (Q := Q) b (pure a) := fun _ => rfl

theorem HComm.bind {b : Nat × Nat} {f : HM Q α} {k : α → HM Q β} (hf : HComm b f)
    (hk : ∀ a, HComm b (k a)) : HComm b (f >>= k) := by
  intro s
  simp only [Bind.bind, EStateM.bind]
  rw [hf s]
  cases f s with
  | ok a s' => exact hk a s'
  | error e s' => rfl

theorem HComm.get {b : Nat × Nat} {k : HState Q → HM Q β} (hk : ∀ s, HComm b (k s))
    (hi : ∀ s, k (s.hear b) = k s) : HComm b (get >>= k) := by
  intro s
  change k (s.hear b) (s.hear b) = mapRes _ (k s s)
  rw [hi]; exact hk s s

theorem HComm.modify {b : Nat × Nat} {g : HState Q → HState Q}
    (h : ∀ s, g (s.hear b) = (g s).hear b) : HComm b (modify g : HM Q PUnit) := by
  intro s
  change EStateM.Result.ok _ (g (s.hear b)) = .ok _ ((g s).hear b)
  rw [h]

theorem HComm.throw (b : Nat × Nat) (e : Err) : HComm (Q := Q) b (throw e : HM Q α) := fun _ => rfl

theorem HComm.liftE (b : Nat × Nat) (x : Except Exn α) : HComm (Q := Q) b (liftE x) := by
  cases x <;> exact fun _ => rfl

theorem HComm.respond (b : Nat × Nat) (k i : String) (d : List String) :
    HComm (Q := Q) b (respond k i d) := HComm.modify (fun _ => rfl)

theorem HComm.ite {b : Nat × Nat} {c : Prop} [Decidable c] {f g : HM Q α} (hf : HComm b f)
    (hg : HComm b g) : HComm b (if c then f else g) := by
  split <;> assumption

theorem HComm.checkFailureCount (b : Nat × Nat) (cfg : HConfig) (r : Req) (t : String) :
    HComm (Q := Q) b (checkFailureCount cfg r t) := by
  unfold Broker.checkFailureCount
  refine HComm.get (fun s => ?_) (fun s => rfl)
  refine HComm.ite ?_ (HComm.pure _ _)
  refine HComm.bind (HComm.respond _ _ _ _) (fun _ => ?_)
  exact HComm.bind (HComm.respond _ _ _ _) (fun _ => HComm.pure _ _)


theorem HComm.qAddWorker (b : Nat × Nat) (env : Env) (w : Worker) (cur : Option Req) :
    HComm (Q := Q) b (qAddWorker env w cur) := by
  unfold Broker.qAddWorker
  refine HComm.get (fun s => ?_) (fun s => rfl)
  refine HComm.bind (HComm.liftE _ _) (fun x => ?_)
  exact HComm.bind (HComm.modify (fun _ => rfl)) (fun _ => HComm.pure _ _)

theorem HComm.qAssign (b : Nat × Nat) (env : Env) (w : Worker) :
    HComm (Q := Q) b (qAssign env w) := by
  unfold Broker.qAssign
  refine HComm.get (fun s => ?_) (fun s => rfl)
  refine HComm.bind (HComm.liftE _ _) (fun x => ?_)
  exact HComm.bind (HComm.modify (fun _ => rfl)) (fun _ => HComm.pure _ _)

theorem HComm.qFinished (b : Nat × Nat) (env : Env) (w : Worker) :
    HComm (Q := Q) b (qFinished env w) := by
  unfold Broker.qFinished
  refine HComm.get (fun s => ?_) (fun s => rfl)
  refine HComm.bind (HComm.liftE _ _) (fun x => ?_)
  exact HComm.bind (HComm.modify (fun _ => rfl)) (fun _ => HComm.pure _ _)

theorem HComm.qTerminated (b : Nat × Nat) (w : Worker) :
    HComm (Q := Q) b (qTerminated w) := by
  unfold Broker.qTerminated
  refine HComm.get (fun s => ?_) (fun s => rfl)
  refine HComm.bind (HComm.liftE _ _) (fun x => ?_)
  exact HComm.bind (HComm.modify (fun _ => rfl)) (fun _ => HComm.pure _ _)

theorem HComm.qEnqueue (b : Nat × Nat) (env : Env) (r : Req) :
    HComm (Q := Q) b (qEnqueue env r) := by
  unfold Broker.qEnqueue
  refine HComm.get (fun s => ?_) (fun s => rfl)
  refine HComm.bind (HComm.liftE _ _) (fun x => ?_)
  exact HComm.bind (HComm.modify (fun _ => rfl)) (fun _ => HComm.pure _ _)

theorem HComm.qCurrent (b : Nat × Nat) (w : Worker) : HComm (Q := Q) b (qCurrent w) := by
  unfold Broker.qCurrent
  refine HComm.get (fun s => ?_) (fun s => rfl)
  exact HComm.bind (HComm.modify (fun _ => rfl)) (fun _ => HComm.pure _ _)

theorem HComm.qCancelled (b : Nat × Nat) (w : Worker) : HComm (Q := Q) b (qCancelled w) := by
  unfold Broker.qCancelled
  refine HComm.get (fun s => ?_) (fun s => rfl)
  exact HComm.bind (HComm.modify (fun _ => rfl)) (fun _ => HComm.pure _ _)

theorem HComm.reassign (b : Nat × Nat) (env : Env) (r : Req) :
    HComm (Q := Q) b (reassignRequest env r) := by
  unfold reassignRequest
  refine HComm.bind (HComm.qEnqueue _ _ _) (fun x => ?_)
  refine HComm.ite ?_ ?_
  · cases x.assignedTo with
    | none => exact HComm.pure _ _
    | some w => exact HComm.bind (HComm.respond _ _ _ _) (fun _ => HComm.pure _ _)
  · exact HComm.bind (HComm.respond _ _ _ _) (fun _ => HComm.pure _ _)

theorem HComm.sendIfSome (b : Nat × Nat) (w : Worker) (o : Option Req) :
    HComm (Q := Q) b (sendIfSome w o) := by
  cases o with
  | none => exact HComm.pure _ _
  | some r => exact HComm.respond _ _ _ _

theorem HComm.doneOk (b : Nat × Nat) (env : Env) (w : Worker) (j : String) :
    HComm (Q := Q) b (doneOk env w j) := by
  unfold Broker.doneOk
  refine HComm.bind (HComm.respond _ _ _ _) (fun _ => ?_)
  refine HComm.bind (HComm.qFinished _ _ _) (fun _ => ?_)
  exact HComm.bind (HComm.sendIfSome _ _ _) (fun _ => HComm.modify (fun _ => rfl))

theorem HComm.bump (b : Nat × Nat) (r : Req) : HComm (Q := Q) b (bumpCount r) :=
  HComm.modify (fun _ => rfl)

theorem HComm.doneInternal (b : Nat × Nat) (cfg : HConfig) (env : Env) (w : Worker) (t : String) :
    HComm (Q := Q) b (doneInternal cfg env w t) := by
  unfold Broker.doneInternal
  refine HComm.bind (HComm.qCancelled _ _) (fun o => ?_)
  cases o with
  | none => exact HComm.throw _ _
  | some r =>
    refine HComm.bind (HComm.bump _ _) (fun _ => ?_)
    simp only
    split
    · exact HComm.bind (HComm.respond _ _ _ _) (fun _ => HComm.modify (fun _ => rfl))
    · refine HComm.bind (HComm.checkFailureCount _ _ _ _) (fun c => ?_)
      cases c with
      | true =>
        exact HComm.bind (HComm.reassign _ _ _) (fun _ => HComm.modify (fun _ => rfl))
      | false =>
        refine HComm.bind (HComm.qAssign _ _ _) (fun _ => ?_)
        exact HComm.bind (HComm.sendIfSome _ _ _) (fun _ => HComm.modify (fun _ => rfl))

theorem HComm.doneFailed (b : Nat × Nat) (env : Env) (w : Worker) (j t : String) :
    HComm (Q := Q) b (doneFailed env w j t) := by
  unfold Broker.doneFailed
  refine HComm.bind (HComm.respond _ _ _ _) (fun _ => ?_)
  refine HComm.bind (HComm.qCancelled _ _) (fun o => ?_)
  cases o with
  | none => exact HComm.throw _ _
  | some r =>
    refine HComm.bind (HComm.bump _ _) (fun _ => ?_)
    refine HComm.bind (HComm.qAssign _ _ _) (fun _ => ?_)
    exact HComm.bind (HComm.sendIfSome _ _ _) (fun _ => HComm.modify (fun _ => rfl))

theorem HComm.done (b : Nat × Nat) (cfg : HConfig) (env : Env) (i : String) (d : List String) :
    HComm (Q := Q) b (processDone cfg env i d) := by
  unfold processDone
  refine HComm.get (fun s => ?_) (fun s => rfl)
  have hc : ∀ w, HComm (Q := Q) b (do let _ ← Broker.qCurrent w; Pure.pure ()) :=
    fun w => HComm.bind (HComm.qCurrent _ _) (fun _ => HComm.pure _ _)
  cases regFind i s.workers with
  | none => exact HComm.pure _ _
  | some w =>
    match d with
    | [] => exact HComm.pure _ _
    | [_] => exact HComm.pure _ _
    | [_, _] => exact HComm.pure _ _
    | _ :: j :: st :: rest =>
      simp only
      refine HComm.bind (HComm.qCurrent _ _) (fun o => ?_)
      cases o with
      | none => exact HComm.throw _ _
      | some r =>
        simp only
        refine HComm.ite (HComm.pure _ _) ?_
        refine HComm.ite (HComm.bind (HComm.doneOk _ _ _ _) (fun _ => hc _)) ?_
        refine HComm.ite ?_ (HComm.ite ?_ (hc _))
        · match rest with
          | [] => exact HComm.pure _ _
          | [t] => exact HComm.bind (HComm.doneInternal _ _ _ _ _) (fun _ => hc _)
          | _ :: _ :: _ => exact HComm.pure _ _
        · match rest with
          | [] => exact HComm.pure _ _
          | [t] => exact HComm.bind (HComm.doneFailed _ _ _ _ _) (fun _ => hc _)
          | _ :: _ :: _ => exact HComm.pure _ _

theorem HComm.ping (b : Nat × Nat) (i : String) : HComm (Q := Q) b (processPing i) := by
  unfold processPing
  refine HComm.get (fun s => ?_) (fun s => rfl)
  cases regFind i s.workers <;> exact HComm.respond _ _ _ _


theorem HComm.touch (a : Nat) (cfg : HConfig) (i : String) :
    HComm (Q := Q) (a, cfg.maxLiveness) (touchWorker cfg i) := by
  intro s
  simp only [touchWorker, Bind.bind, EStateM.bind, MonadState.get, getThe, MonadStateOf.get, EStateM.get]
  rw [show (s.hear (a, cfg.maxLiveness)).workers = s.workers from rfl]
  cases regFind i s.workers with
  | none => rfl
  | some w =>
    simp only [HState.hear, mapRes, MonadStateOf.set, EStateM.set, WMap.put_reset, upd_swap _ a]

theorem HComm.submit (b : Nat × Nat) (env : Env) (i j : String) (hs : Headers) (md : Metadata)
    (x : List String) : HComm (Q := Q) b (submit env i j hs md x) := by
  intro s
  have h : HComm (Q := Q) b (do
      let res ← Broker.qEnqueue env (Req.full s.nextRid hs md j x)
      if res.enqueued then do
        match res.assignedTo with
        | some w => sendRequest w (Req.full s.nextRid hs md j x)
        | none => Pure.pure ()
        Broker.respond keyClients i ["accept"]
      else do
        Broker.respond keyClients i ["reject", rejectMessage hs]
        notifyMonitor j "FAILED") := by
    refine HComm.bind (HComm.qEnqueue _ _ _) (fun r => ?_)
    refine HComm.ite ?_ ?_
    · cases r.assignedTo with
      | none => exact HComm.respond _ _ _ _
      | some w => exact HComm.bind (HComm.respond _ _ _ _) (fun _ => HComm.respond _ _ _ _)
    · exact HComm.bind (HComm.respond _ _ _ _) (fun _ => HComm.respond _ _ _ _)
  exact h { s with nextRid := s.nextRid + 1, fc := upd s.fc s.nextRid 0 }

theorem HComm.client (b : Nat × Nat) (env : Env) (c i : String) (d : List String) :
    HComm (Q := Q) b (clientCommand env c i d) := by
  unfold clientCommand
  refine HComm.ite ?_ (HComm.ite ?_ (HComm.ite ?_ (HComm.ite ?_ (HComm.pure _ _))))
  · unfold processEval
    refine HComm.bind (HComm.respond _ _ _ _) (fun _ => ?_)
    cases d[1]? with
    | none => exact HComm.throw _ _
    | some j =>
      simp only
      split
      · exact HComm.throw _ _
      · exact HComm.pure _ _
      · refine HComm.get (fun s => ?_) (fun s => rfl)
        exact HComm.ite (HComm.respond _ _ _ _) (HComm.submit _ _ _ _ _ _ _)
  · unfold processStats
    exact HComm.get (fun s => HComm.respond _ _ _ _) (fun s => rfl)
  · exact HComm.bind (HComm.modify (fun _ => rfl)) (fun _ => HComm.respond _ _ _ _)
  · exact HComm.bind (HComm.modify (fun _ => rfl)) (fun _ => HComm.respond _ _ _ _)

/-! ## Registration -/

theorem hear_addrs (b : Nat × Nat) (s : HState Q) : (s.hear b).addrs = s.addrs := by
  simp only [HState.addrs, HState.hear, WMap.reset_addrs]

theorem hear_register {a n : Nat} (env : Env) (i g : String) (hs : Headers) (x : List String)
    {s : HState Q} (ha : a ∈ s.addrs) :
    registerWorker env i g hs x (s.hear (a, n)) =
      mapRes (·.hear (a, n)) (registerWorker env i g hs x s) := by
  unfold registerWorker
  simp only [Bind.bind, EStateM.bind, MonadState.get, getThe, MonadStateOf.get, EStateM.get]
  rw [hear_addrs, show (s.hear (a, n)).allocs = s.allocs from rfl]
  have hne : a ≠ env.alloc s.allocs s.addrs := fun h => env.alloc_fresh _ _ (h ▸ ha)
  generalize env.alloc s.allocs s.addrs = c at hne
  generalize Worker.create c i g hs (initExtra x "" none).1 = cr
  cases cr with
  | error e => rfl
  | ok w =>
    simp only [Broker.liftE, Pure.pure, EStateM.pure, MonadStateOf.set, EStateM.set]
    have hq := HComm.qAddWorker (Q := Q) (a, n) env w
      (Option.map (Req.incomplete s.nextRid) (initExtra x "" none).2)
      { s with
        workers := s.workers ++ [w], live := upd s.live c 0,
        fc := upd s.fc s.nextRid 0, nextRid := s.nextRid + 1, allocs := s.allocs + 1 }
    simp only [HState.hear] at hq ⊢
    rw [upd_swap' _ hne, hq]
    generalize Broker.qAddWorker (Q := Q) env w _ _ = res
    have he : ∀ s1 : HState Q,
        ({ s1 with
            live := upd s1.live a n, timers := WMap.emplace w 0 (s1.timers.reset a) } : HState Q) =
          { s1 with live := upd s1.live a n, timers := (s1.timers.emplace w 0).reset a } := by
      intro s1; rw [WMap.emplace_reset]
    cases res with
    | error e s1 => rfl
    | ok r s1 =>
      cases r with
      | none => exact congrArg (EStateM.Result.ok ()) (he s1)
      | some r =>
        exact congrArg (EStateM.Result.ok ())
          (he { s1 with outs := s1.outs ++ [⟨keyWorkers, w.identity, _⟩] })

theorem hear_init {a n : Nat} (env : Env) (i : String) (d : List String) {s : HState Q}
    (ha : a ∈ s.addrs) :
    processInit env i d (s.hear (a, n)) = mapRes (·.hear (a, n)) (processInit env i d s) := by
  unfold processInit
  match d with
  | [] => rfl
  | [_] => rfl
  | _ :: g :: rest =>
    simp only [Bind.bind, EStateM.bind, MonadState.get, getThe, MonadStateOf.get, EStateM.get]
    rw [show (s.hear (a, n)).workers = s.workers from rfl]
    cases regFind i s.workers with
    | none => exact hear_register _ _ _ _ _ ha
    | some w =>
      simp only
      split
      · rfl
      · exact hear_register _ _ _ _ _ (s := { s with outs := s.outs ++ [⟨_, _, _⟩] }) ha

/-! ## Messages -/

/-- Handling a message that is not a tick commutes with hearing from a worker. -/
theorem hear_request {cfg : HConfig} {env : Env} {m : Msg} (hm : m.key ≠ keyTimer) {a : Nat}
    {s : HState Q} (ha : a ∈ s.workers.map (·.addr)) :
    onRequest cfg env m (s.hear (a, cfg.maxLiveness)) =
      mapRes (·.hear (a, cfg.maxLiveness)) (onRequest cfg env m s) := by
  unfold onRequest
  by_cases h1 : m.key = keyWorkers
  · simp only [if_pos h1, Bind.bind, EStateM.bind]
    rw [HComm.touch a cfg m.identity s]
    have hw : ∀ u s', touchWorker cfg m.identity s = .ok u s' → s'.workers = s.workers := by
      intro u s' h
      simp only [touchWorker, Bind.bind, EStateM.bind, MonadState.get, getThe, MonadStateOf.get,
        EStateM.get] at h
      cases hf : regFind m.identity s.workers with
      | none => rw [hf] at h; cases h; rfl
      | some w => rw [hf] at h; cases h; rfl
    cases ht : touchWorker cfg m.identity s with
    | error e s' => rfl
    | ok u s' =>
      have ha' : a ∈ s'.addrs := List.mem_append_left _ ((hw u s' ht).symm ▸ ha)
      simp only [mapRes]
      cases m.data with
      | nil => rfl
      | cons c _ =>
        simp only [workerCommand]
        by_cases hc : c = "init"
        · simp only [if_pos hc]
          exact hear_init _ _ _ ha'
        · simp only [if_neg hc]
          exact HComm.ite (HComm.done _ _ _ _ _) (HComm.ite (HComm.ping _ _)
            (HComm.ite (HComm.respond _ _ _ _) (HComm.pure _ _))) s'
  · simp only [if_neg h1]
    by_cases h2 : m.key = keyClients
    · simp only [if_pos h2]
      cases m.data with
      | nil => rfl
      | cons c _ => exact HComm.client _ _ _ _ _ s
    · simp only [if_neg h2, if_neg hm]
      rfl

end Broker
