import Verif.Proof.Total
import Verif.Spec.Outputs

/-!
# The forms of emitted messages, for normal and abnormal outcomes
-/

set_option linter.unusedSectionVars false

namespace Broker

variable {Q : Type} {b : Prop}

/-- Whatever the outcome, the computation emits only messages of the right form. -/
def Says (b : Prop) {α : Type} (x : HM Q α) : Prop :=
  ∀ s, (∀ o ∈ s.outs, Spec.OutShape b o) →
    wp x s (fun _ s' => ∀ o ∈ s'.outs, Spec.OutShape b o) (fun _ s' => ∀ o ∈ s'.outs, Spec.OutShape b o)

theorem says_pure {α : Type} (a : α) : Says b (pure a : HM Q α) := fun _ h => h

theorem says_bind {α β : Type} {x : HM Q α} {f : α → HM Q β} (hx : Says b x)
    (hf : ∀ a, Says b (f a)) : Says b (x >>= f) := by
  intro s h
  rw [wp_bind]
  refine wp_mono (hx s h) ?_ (fun _ _ h => h)
  intro a s1 h1
  exact hf a s1 h1

theorem says_get : Says b (get : HM Q (HState Q)) := fun _ h => h

theorem says_modify {f : HState Q → HState Q} (h : ∀ s, (f s).outs = s.outs) :
    Says b (modify f : HM Q PUnit) := fun s hs => by
  show ∀ o ∈ (f s).outs, _
  rw [h s]; exact hs

theorem says_liftE {α : Type} (x : Except Exn α) : Says b (liftE x : HM Q α) := by
  intro s h
  cases x <;> exact h

theorem says_undef {α : Type} (u : UB) : Says b (undef u : HM Q α) := fun _ h => h

theorem says_raise {α : Type} (e : Exn) : Says b (raise e : HM Q α) := fun _ h => h

theorem says_respond {k i : String} {d : List String} (h : Spec.OutShape b ⟨k, i, d⟩) :
    Says b (respond k i d : HM Q Unit) := by
  intro s hs o ho
  rcases List.mem_append.1 ho with ho | ho
  · exact hs o ho
  · rw [List.mem_singleton.1 ho]; exact h

theorem says_ite {α : Type} {c : Prop} [Decidable c] {x y : HM Q α} (hx : Says b x)
    (hy : Says b y) : Says b (if c then x else y) := by
  split <;> assumption

theorem says_get_bind {β : Type} {f : HState Q → HM Q β} (hf : ∀ a, Says b (f a)) :
    Says b (get >>= f) := says_bind says_get hf

theorem says_monitor (j t : String) : Says b (notifyMonitor j t : HM Q _) :=
  says_respond (.inr (.inr (.inl ⟨rfl, rfl, by simp⟩)))

theorem says_error (t : String) : Says b (notifyError t : HM Q _) :=
  says_respond (.inr (.inr (.inr ⟨rfl, rfl, .error _⟩)))

theorem says_rejected (j t : String) : Says b (notifyRejected j t : HM Q _) :=
  says_respond (.inr (.inr (.inr ⟨rfl, rfl, .failed _ _⟩)))

theorem says_failed (j t : String) : Says b (notifyFailed j t : HM Q _) :=
  says_respond (.inr (.inr (.inr ⟨rfl, rfl, .failed _ _⟩)))

theorem says_done (j : String) : Says b (notifyDone j : HM Q _) :=
  says_respond (.inr (.inr (.inr ⟨rfl, rfl, .ok _⟩)))

theorem says_sendRequest (w : Worker) (r : Req) : Says b (sendRequest w r : HM Q _) :=
  says_respond (.inl rfl)

theorem says_client (i f : String) (t : List String) :
    Says b (respond keyClients i (f :: t) : HM Q _) :=
  says_respond (.inr (.inl ⟨rfl, by simp⟩))

variable [QueueManager Q]

theorem says_qAssign (env : Env) (w : Worker) : Says b (qAssign env w : HM Q _) := by
  refine says_get_bind fun s => says_bind (says_liftE _) fun p => ?_
  exact says_bind (says_modify fun _ => rfl) fun _ => says_pure _

theorem says_qFinished (env : Env) (w : Worker) : Says b (qFinished env w : HM Q _) := by
  refine says_get_bind fun s => says_bind (says_liftE _) fun p => ?_
  exact says_bind (says_modify fun _ => rfl) fun _ => says_pure _

theorem says_qAddWorker (env : Env) (w : Worker) (c : Option Req) :
    Says b (qAddWorker env w c : HM Q _) := by
  refine says_get_bind fun s => says_bind (says_liftE _) fun p => ?_
  exact says_bind (says_modify fun _ => rfl) fun _ => says_pure _

theorem says_qTerminated (w : Worker) : Says b (qTerminated w : HM Q _) := by
  refine says_get_bind fun s => says_bind (says_liftE _) fun p => ?_
  exact says_bind (says_modify fun _ => rfl) fun _ => says_pure _

theorem says_qEnqueue (env : Env) (r : Req) : Says b (qEnqueue env r : HM Q _) := by
  refine says_get_bind fun s => says_bind (says_liftE _) fun p => ?_
  exact says_bind (says_modify fun _ => rfl) fun _ => says_pure _

theorem says_qCurrent (w : Worker) : Says b (qCurrent w : HM Q _) := by
  refine says_get_bind fun s => ?_
  exact says_bind (says_modify fun _ => rfl) fun _ => says_pure _

theorem says_qCancelled (w : Worker) : Says b (qCancelled w : HM Q _) := by
  refine says_get_bind fun s => ?_
  exact says_bind (says_modify fun _ => rfl) fun _ => says_pure _

theorem says_reassign (env : Env) (r : Req) : Says b (reassignRequest env r : HM Q _) := by
  refine says_bind (says_qEnqueue env r) fun res => ?_
  refine says_ite ?_ ?_
  · cases res.assignedTo with
    | none => exact says_pure _
    | some w => exact says_bind (says_sendRequest _ _) fun _ => says_pure _
  · exact says_bind (says_monitor _ _) fun _ => says_pure _

theorem says_checkFailureCount (cfg : HConfig) (r : Req) (t : String) :
    Says b (checkFailureCount cfg r t : HM Q _) := by
  refine says_get_bind fun s => says_ite ?_ (says_pure _)
  exact says_bind (says_failed _ _) fun _ => says_bind (says_monitor _ _) fun _ =>
    says_pure _

theorem says_sendIfSome (w : Worker) (o : Option Req) : Says b (sendIfSome w o : HM Q _) := by
  cases o with
  | none => exact says_pure _
  | some r => exact says_sendRequest _ _

theorem says_submit (env : Env) (i j : String) (hs : Headers) (md : Metadata) (x : List String) :
    Says b (submit env i j hs md x : HM Q _) := by
  intro s h
  simp only [submit, wp_bind, wp_get, wp_set]
  refine wp_mono (says_qEnqueue env _ _ h) ?_ (fun _ _ h => h)
  intro res s1 h1
  have h2 : Says b (if res.enqueued = true then do
      match res.assignedTo with
      | some w => sendRequest w (Req.full s.nextRid hs md j x)
      | none => pure ()
      respond keyClients i ["accept"]
    else do
      respond keyClients i ["reject", rejectMessage hs]
      notifyMonitor j "FAILED" : HM Q Unit) := by
    refine says_ite ?_ (says_bind (says_client _ _ _) fun _ => says_monitor _ _)
    cases res.assignedTo with
    | none => exact says_client _ _ _
    | some w => exact says_bind (says_sendRequest _ _) fun _ => says_client _ _ _
  exact h2 s1 h1

theorem says_processEval (env : Env) (i : String) (msg : List String) :
    Says b (processEval env i msg : HM Q _) := by
  refine says_bind (says_client _ _ _) fun _ => ?_
  split
  · exact says_raise _
  · split
    · exact says_undef _
    · exact says_pure _
    · exact says_get_bind fun s => says_ite (says_client _ _ _) (says_submit _ _ _ _ _ _)

theorem says_doneOk (env : Env) (w : Worker) (j : String) : Says b (doneOk env w j : HM Q _) :=
  says_bind (says_done _) fun _ => says_bind (says_qFinished env w) fun o =>
    says_bind (says_sendIfSome w o) fun _ => says_modify fun _ => rfl

theorem says_doneInternal (cfg : HConfig) (env : Env) (w : Worker) (t : String) :
    Says b (doneInternal cfg env w t : HM Q _) := by
  refine says_bind (says_qCancelled w) fun o => ?_
  cases o with
  | none => exact says_undef _
  | some r =>
    refine says_bind (says_modify fun _ => rfl) fun _ => ?_
    have hc : Says b (countFailed : HM Q Unit) := says_modify fun _ => rfl
    dsimp only
    split
    · exact says_bind (says_rejected _ _) fun _ => hc
    · refine says_bind (says_checkFailureCount cfg r t) fun b => ?_
      cases b with
      | true => exact says_bind (says_reassign env r) fun _ => hc
      | false =>
        exact says_bind (says_qAssign env w) fun o => says_bind (says_sendIfSome w o) fun _ => hc

theorem says_doneFailed (env : Env) (w : Worker) (j t : String) :
    Says b (doneFailed env w j t : HM Q _) := by
  refine says_bind (says_failed _ _) fun _ => says_bind (says_qCancelled w) fun o => ?_
  cases o with
  | none => exact says_undef _
  | some r =>
    exact says_bind (says_modify fun _ => rfl) fun _ => says_bind (says_qAssign env w) fun o =>
      says_bind (says_sendIfSome w o) fun _ => says_modify fun _ => rfl

theorem says_processDone (cfg : HConfig) (env : Env) (i : String) (msg : List String) :
    Says b (processDone cfg env i msg : HM Q _) := by
  refine says_get_bind fun s => ?_
  split
  · exact says_pure _
  · rename_i w _
    split
    · rename_i j st rest
      refine says_bind (says_qCurrent w) fun o => ?_
      cases o with
      | none => exact says_undef _
      | some r =>
        have hq : Says b (do let _ ← qCurrent w : HM Q Unit) :=
          says_bind (says_qCurrent w) fun _ => says_pure _
        refine says_ite (says_pure _) (says_ite ?_ (says_ite ?_ (says_ite ?_ hq)))
        · exact says_bind (says_doneOk env w _) fun _ => hq
        · split
          · exact says_bind (says_doneInternal cfg env w _) fun _ => hq
          · exact says_pure _
        · split
          · exact says_bind (says_doneFailed env w _ _) fun _ => hq
          · exact says_pure _
    · exact says_pure _

theorem says_processPing (i : String) : Says b (processPing i : HM Q _) := by
  refine says_get_bind fun s => ?_
  split <;> exact says_respond (.inl rfl)

theorem says_settle (cfg : HConfig) (env : Env) : ∀ rs : List Req,
    Says b (settleRequests cfg env rs : HM Q _) := by
  intro rs
  induction rs with
  | nil => exact says_pure _
  | cons r rs ih =>
    rw [settleRequests]
    refine says_ite ?_ ?_
    · exact says_bind (says_rejected _ _) fun _ => says_bind (says_monitor _ _) fun _ => ih
    · refine says_bind (says_checkFailureCount cfg r _) fun b => says_ite ?_ ih
      refine says_bind (says_reassign env r) fun b => says_ite ?_ ?_
      · exact says_bind (says_monitor _ _) fun _ => ih
      · exact says_bind ih fun _ => says_pure _

theorem says_rejectAll (d : String) : ∀ rs : List Req, Says b (rejectAll d rs : HM Q _) := by
  intro rs
  induction rs with
  | nil => exact says_pure _
  | cons r rs ih => exact says_bind (says_rejected _ _) fun _ => ih

theorem says_countIdle : ∀ ws : List Worker, Says b (countIdle ws : HM Q _) := by
  intro ws
  induction ws with
  | nil => exact says_pure _
  | cons w ws ih => exact says_bind (says_qCurrent w) fun _ => says_bind ih fun _ => says_pure _

theorem says_updateGauges : Says b (updateGauges : HM Q _) :=
  says_get_bind fun s => says_bind (says_countIdle s.workers) fun _ => says_modify fun _ => rfl

theorem says_expireWorker (cfg : HConfig) (env : Env) (w : Worker) :
    Says b (expireWorker cfg env w : HM Q _) := by
  refine says_bind (says_modify fun _ => rfl) fun _ => says_bind (says_qCurrent w) fun o => ?_
  have hk : Says b (do
      let requests ← qTerminated w
      let unassigned ← settleRequests cfg env requests
      rejectAll ("Worker " ++ w.getDescription ++ " dieded") unassigned : HM Q Unit) :=
    says_bind (says_qTerminated w) fun rs => says_bind (says_settle cfg env rs) fun un =>
      says_rejectAll _ un
  cases o with
  | none => exact hk
  | some r => exact says_bind (says_modify fun _ => rfl) fun _ => hk

theorem says_expireWorkers (cfg : HConfig) (env : Env) : ∀ ws : List Worker,
    Says b (expireWorkers cfg env ws : HM Q _) := by
  intro ws
  induction ws with
  | nil => exact says_pure _
  | cons w ws ih => exact says_bind (says_expireWorker cfg env w) fun _ => ih

theorem says_tickWorker (cfg : HConfig) (time : Int) (w : Worker) :
    Says b (tickWorker cfg time w : HM Q _) := by
  intro s h
  simp only [tickWorker, wp_bind, wp_get]
  split
  · exact h
  · exact h

theorem says_tickWorkers (cfg : HConfig) (time : Int) : ∀ ws : List Worker,
    Says b (tickWorkers cfg time ws : HM Q _) := by
  intro ws
  induction ws with
  | nil => exact says_pure _
  | cons w ws ih =>
    exact says_bind (says_tickWorker cfg time w) fun _ => says_bind ih fun _ => says_pure _

theorem says_processTimer (cfg : HConfig) (env : Env) (data : List String) :
    Says b (processTimer cfg env data : HM Q _) := by
  cases data with
  | nil => exact says_undef _
  | cons f t =>
    exact says_bind (says_liftE _) fun time => says_get_bind fun s =>
      says_bind (says_tickWorkers cfg time _) fun ws =>
      says_bind (says_expireWorkers cfg env ws) fun _ => says_updateGauges

theorem says_registerWorker (env : Env) (i g : String) (hs : Headers) (extra : List String) :
    Says b (registerWorker env i g hs extra : HM Q _) := by
  intro s h
  simp only [registerWorker, wp_bind, wp_get, wp_set, wp_liftE]
  split
  · rename_i w _
    refine wp_mono (says_qAddWorker env w _ _ h) ?_ (fun _ _ h => h)
    intro o s1 h1
    have : Says b (do
      match o with
      | some r => sendRequest w r
      | none => pure ()
      modify fun s => { s with timers := s.timers.emplace w 0 } : HM Q Unit) := by
      cases o with
      | none => exact says_modify fun _ => rfl
      | some r => exact says_bind (says_sendRequest _ _) fun _ => says_modify fun _ => rfl
    exact this s1 h1
  · exact h

theorem says_processInit (env : Env) (i : String) (msg : List String) :
    Says b (processInit env i msg : HM Q _) := by
  match msg with
  | [] => exact says_pure _
  | [_] => exact says_pure _
  | _ :: g :: rest =>
    refine says_get_bind fun s => ?_
    split
    · exact says_ite (says_pure _) (says_bind (says_error _) fun _ => says_registerWorker _ _ _ _ _)
    · exact says_registerWorker _ _ _ _ _

theorem says_touchWorker (cfg : HConfig) (i : String) : Says b (touchWorker cfg i : HM Q _) := by
  intro s h
  simp only [touchWorker, wp_bind, wp_get]
  split <;> exact h

theorem says_clientCommand (env : Env) (c i : String) (msg : List String) :
    Says b (clientCommand env c i msg : HM Q _) := by
  refine says_ite (says_processEval _ _ _) (says_ite ?_ (says_ite ?_ (says_ite ?_ (says_pure _))))
  · exact says_get_bind fun s => says_client _ _ _
  · exact says_bind (says_modify fun _ => rfl) fun _ => says_client _ _ _
  · exact says_bind (says_modify fun _ => rfl) fun _ => says_client _ _ _

theorem says_workerCommand (cfg : HConfig) (env : Env) (c i : String) (msg : List String)
    (hb : c = "progress" → msg.tail = [] → b) :
    Says b (workerCommand cfg env c i msg : HM Q _) := by
  refine says_ite (says_processInit _ _ _) (says_ite (says_processDone _ _ _ _)
    (says_ite (says_processPing _) ?_))
  split
  · rename_i h
    exact says_respond (.inr (.inr (.inl ⟨rfl, rfl, hb h⟩)))
  · exact says_pure _

theorem says_onRequest (cfg : HConfig) (env : Env) (m : Msg) :
    Says (Spec.bareProgress m) (onRequest cfg env m : HM Q _) := by
  unfold onRequest
  split
  rotate_left
  · refine (says_ite ?_ (says_ite (says_processTimer _ _ _) (says_pure _)))
    split
    · exact says_raise _
    · exact says_clientCommand _ _ _ _
  · rename_i hk
    refine says_bind (says_touchWorker _ _) fun _ => ?_
    split
    · exact says_raise _
    · rename_i c t hd
      refine says_workerCommand _ _ _ _ _ fun hc ht => ⟨hk, ?_⟩
      rw [hd, hc]
      rw [hd] at ht
      simpa using ht

/-- All messages emitted while handling a message have the right form, whatever the outcome. -/
theorem step_shapes (cfg : HConfig) (env : Env) (m : Msg) (s : HState Q) :
    match step cfg env m s with
    | .ok _ s' => ∀ o ∈ s'.outs, Spec.OutShape (Spec.bareProgress m) o
    | .error _ s' => ∀ o ∈ s'.outs, Spec.OutShape (Spec.bareProgress m) o := by
  have := says_onRequest cfg env m { s with outs := [] } (by simp)
  unfold wp at this
  unfold step
  split <;> rename_i h <;> simpa [h] using this

/-! ## Abnormal outcomes -/

section
variable [LawfulQM Q]

/-- Handling a message abnormally emits nothing for workers. -/
theorem step_err_quiet {cfg : HConfig} {env : Env} {m : Msg} {s s' : HState Q} {e : Err}
    (h : HInv s) (hs : step cfg env m s = .error e s') : ∀ o ∈ s'.outs, o.key ≠ keyWorkers := by
  have h0 : HInv ({ s with outs := [] } : HState Q) := h.of_eq rfl rfl
  have herr := step_err h hs
  obtain ⟨key, identity, data⟩ := m
  refine wp_err (R := fun _ _ => True) (E := fun _ s1 => ∀ o ∈ s1.outs, o.key ≠ keyWorkers) ?_ (show onRequest cfg env ⟨key, identity, data⟩ { s with outs := [] } = _ from hs)
  have hh : (({ s with outs := [] } : HState Q).heard cfg identity).outs = [] := by
    rw [heard_frame]
  have hwk : ∀ rest, data = rest → key = keyWorkers →
      wp (match rest with
        | [] => raise .outOfRange
        | command :: _ => workerCommand cfg env command identity rest : HM Q Unit)
        (({ s with outs := [] } : HState Q).heard cfg identity) (fun _ _ => True)
        (fun _ s' => ∀ o ∈ s'.outs, o.key ≠ keyWorkers) →
      wp (onRequest cfg env ⟨key, identity, data⟩) { s with outs := [] } (fun _ _ => True)
        (fun _ s' => ∀ o ∈ s'.outs, o.key ≠ keyWorkers) := by
    rintro rest rfl hk hw
    unfold onRequest
    rw [if_pos hk, wp_bind]
    unfold wp
    rw [touchWorker_eq]
    exact hw
  cases herr with
  | empty hk hd he =>
    have hk : key = keyWorkers ∨ key = keyClients := hk
    have hd : data = [] := hd
    rcases hk with hk | hk
    · refine hwk [] hd hk ?_
      show ∀ o ∈ (HState.heard _ _ _).outs, _
      rw [hh]; simp
    · subst hk hd
      unfold onRequest
      rw [if_neg (show keyClients ≠ keyWorkers by decide), if_pos rfl]
      intro o ho
      cases ho
  | init hk hd hE =>
    refine hwk _ hd hk ?_
    obtain ⟨c, g, rest', x, hm, he, hne, hcr⟩ := hE
    have hm : data = c :: g :: rest' := hm
    have hd' : data = "init" :: _ := hd
    rw [hm] at hd'
    obtain ⟨rfl, rfl⟩ := List.cons.inj hd'
    show wp (workerCommand cfg env "init" identity _) _ _ _
    unfold workerCommand
    rw [if_pos rfl]
    have hreg : ∀ s1 : HState Q, s1.allocs = (HState.heard cfg identity { s with outs := [] }).allocs →
        s1.addrs = (HState.heard cfg identity { s with outs := [] }).addrs →
        (∀ o ∈ s1.outs, o.key ≠ keyWorkers) →
        wp (registerWorker env identity g (initHeaders rest' []).1 (initHeaders rest' []).2) s1
          (fun _ _ => True) (fun _ s' => ∀ o ∈ s'.outs, o.key ≠ keyWorkers) := by
      intro s1 ha hb ho
      simp only [registerWorker, wp_bind, wp_get, wp_liftE, ha, hb]
      rw [hcr]
      exact ho
    simp only [processInit, wp_bind, wp_get]
    split
    · split
      · trivial
      · simp only [wp_bind, notifyError, wp_respond]
        refine hreg _ rfl rfl ?_
        intro o ho
        rw [hh] at ho
        rw [List.mem_singleton.1 ho]
        exact (by decide : keyNotifier ≠ keyWorkers)
    · refine hreg _ rfl rfl ?_
      rw [hh]; simp
  | @done rest hk hd hE =>
    refine hwk _ hd hk ?_
    obtain ⟨hlen, he, w, hw, hidle⟩ := hE
    have hd' : data = "done" :: _ := hd
    have hlen : 3 ≤ data.length := hlen
    rw [hd'] at hlen
    show wp (workerCommand cfg env "done" identity _) _ _ _
    unfold workerCommand
    rw [if_neg (by decide), if_pos rfl]
    have hfr := heard_frame cfg identity ({ s with outs := [] } : HState Q)
    have h1 : HInv (({ s with outs := [] } : HState Q).heard cfg identity) :=
      h0.of_eq (by rw [hfr]) (by rw [hfr])
    have hw' : regFind identity (({ s with outs := [] } : HState Q).heard cfg identity).workers
        = some w := by rw [hfr]; exact hw
    have hq' : (({ s with outs := [] } : HState Q).heard cfg identity).queue = s.queue := by rw [hfr]
    simp only [processDone, wp_bind, wp_get, hw']
    match rest, hlen with
    | [], h => simp at h
    | [_], h => simp at h
    | j :: st :: rest', _ =>
      simp only [wp_bind]
      refine wp_qCurrent h1 (regFind_mem hw').1 ?_ ?_
      · intro _ o ho
        rw [hh] at ho; cases ho
      · intro r hb
        rw [hq'] at hb
        exact absurd hb (hidle r)
  | eval hk hd hE =>
    have hk : key = keyClients := hk
    have hd : data = "eval" :: _ := hd
    subst hk hd
    unfold onRequest
    rw [if_neg (show keyClients ≠ keyWorkers by decide), if_pos rfl]
    show wp (clientCommand env "eval" identity _) _ _ _
    unfold clientCommand
    rw [if_pos rfl]
    have hack : ∀ o ∈ ([] ++ [⟨keyClients, identity, ["ack"]⟩] : List Msg), o.key ≠ keyWorkers := by
      intro o ho
      rw [List.mem_singleton.1 ho]
      exact (by decide : keyClients ≠ keyWorkers)
    simp only [processEval, wp_bind, wp_respond]
    split
    · exact hack
    · split
      · exact hack
      · trivial
      · simp only [wp_bind, wp_get]
        split
        · trivial
        · simp only [submit, qEnqueue, wp_bind, wp_get, wp_set, wp_liftE, wp_modify, wp_pure]
          split
          · simp only [sendRequest, notifyMonitor]
            split
            · split <;> trivial
            · trivial
          · exact hack
  | timer hk hE =>
    have hk : key = keyTimer := hk
    subst hk
    unfold onRequest
    rw [if_neg (show keyTimer ≠ keyWorkers by decide), if_neg (show keyTimer ≠ keyClients by decide), if_pos rfl]
    rcases hE with ⟨hd, he⟩ | ⟨f, rest, x, hd, hx, he⟩
    · have hd : data = [] := hd
      subst hd
      intro o ho
      cases ho
    · have hd : data = f :: rest := hd
      subst hd
      simp only [processTimer, wp_bind, wp_liftE, hx]
      intro o ho
      cases ho

end

end Broker
