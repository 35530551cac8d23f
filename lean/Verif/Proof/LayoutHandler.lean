import Verif.Proof.Layout
import Verif.Spec.Names

/-! # The broker handler in two memory layouts -/

namespace Broker

variable {Q : Type} [QueueManager Q] [Carries Q] [LayoutQM Q] {α β γ δ : Type}

/-- Corresponding states of the handler.  `P`: pairs of addresses of objects that are not yet in
    `worker_timers_`. -/
structure HR (P : ARel) (ρ : LRel) (s s' : HState Q) : Prop where
  one : ρ.rel.OneOne
  inj : ∀ {i j : String}, ρ.name i = ρ.name j → i = j
  alike : ∀ {i : String} {h k h' k' : Headers}, ρ.like i h h' → ρ.like i k k' → (h = k ↔ h' = k')
  good : LayoutQM.Good Q ρ
  dom : ∀ a b, ρ.rel a b → (a ∈ s.timers.map (·.1.addr) ∧ b ∈ s'.timers.map (·.1.addr)) ∨ P a b
  workers : List.Forall₂ (WN ρ) s.workers s'.workers
  queue : LayoutQM.QR ρ s.queue s'.queue
  asks : ∀ r, Carries.holds s.queue r → ρ.asked r.headers
  none : ρ.asked []
  timers : MapRel ρ s.timers s'.timers
  live : ∀ a b, ρ.rel a b → s'.live b = s.live a
  fc : s'.fc = s.fc
  nextRid : s'.nextRid = s.nextRid
  allocs : s'.allocs = s.allocs
  clockReads : s'.clockReads = s.clockReads
  stats : s'.stats = s.stats
  frozen : s'.frozen = s.frozen
  outs : List.Forall₂ (Spec.Told ρ.name ρ.title) s.outs s'.outs

/-- Corresponding results. -/
inductive RelRes (P : ARel) (ρ : LRel) (A : α → β → Prop) :
    EStateM.Result Err (HState Q) α → EStateM.Result Err (HState Q) β → Prop
  | ok {a : α} {b : β} {t t' : HState Q} (h : A a b) (hs : HR P ρ t t') :
    RelRes P ρ A (.ok a t) (.ok b t')
  | error {t t' : HState Q} (e : Err) (ho : List.Forall₂ (Spec.Told ρ.name ρ.title) t.outs t'.outs) :
    RelRes P ρ A (.error e t) (.error e t')

/-- Corresponding computations. -/
def RelM (P : ARel) (ρ : LRel) (A : α → β → Prop) (x : HM Q α) (y : HM Q β) : Prop :=
  ∀ s s', HR P ρ s s' → RelRes P ρ A (x s) (y s')

theorem RelM.bind {P : ARel} {ρ : LRel} {A : α → β → Prop} {B : γ → δ → Prop} {x : HM Q α} {y : HM Q β}
    {f : α → HM Q γ} {g : β → HM Q δ} (h : RelM P ρ A x y) (hf : ∀ a b, A a b → RelM P ρ B (f a) (g b)) :
    RelM P ρ B (x >>= f) (y >>= g) := by
  intro s s' hs
  have h1 := h s s' hs
  simp only [Bind.bind, EStateM.bind]
  cases hx : x s with
  | ok a t =>
    cases hy : y s' with
    | ok b t' =>
      rw [hx, hy] at h1
      cases h1 with
      | ok h2 h3 => exact hf a b h2 t t' h3
    | error e t' => rw [hx, hy] at h1; cases h1
  | error e t =>
    cases hy : y s' with
    | ok b t' => rw [hx, hy] at h1; cases h1
    | error e' t' =>
      rw [hx, hy] at h1
      cases h1 with
      | error _ ho => exact .error _ ho

theorem RelM.pure {P : ARel} {ρ : LRel} {A : α → β → Prop} {a : α} {b : β} (h : A a b) :
    RelM P ρ A (pure a : HM Q α) (pure b) := fun _ _ hs => .ok h hs

theorem RelM.mono {P : ARel} {ρ : LRel} {A B : α → β → Prop} {x : HM Q α} {y : HM Q β} (h : RelM P ρ A x y)
    (hab : ∀ a b, A a b → B a b) : RelM P ρ B x y := by
  intro s s' hs
  have h1 := h s s' hs
  cases hx : x s <;> cases hy : y s' <;> rw [hx, hy] at h1 <;> cases h1
  · rename_i h2 hs'; exact .ok (hab _ _ h2) hs'
  · rename_i ho; exact .error _ ho

theorem RelM.bindEq {P : ARel} {ρ : LRel} {B : γ → δ → Prop} {x y : HM Q α} {f : α → HM Q γ} {g : α → HM Q δ}
    (h : RelM P ρ Eq x y) (hf : ∀ a, RelM P ρ B (f a) (g a)) : RelM P ρ B (x >>= f) (y >>= g) :=
  h.bind (by rintro a _ rfl; exact hf a)

theorem RelM.undef {P : ARel} {ρ : LRel} {A : α → β → Prop} (u : UB) :
    RelM P ρ A (undef u : HM Q α) (undef u) := fun _ _ hs => .error _ hs.outs

theorem RelM.raise {P : ARel} {ρ : LRel} {A : α → β → Prop} (e : Exn) :
    RelM P ρ A (raise e : HM Q α) (raise e) := fun _ _ hs => .error _ hs.outs

theorem RelM.liftE {P : ARel} {ρ : LRel} {A : α → β → Prop} {x : Except Exn α} {y : Except Exn β}
    (h : RelE A x y) : RelM P ρ A (liftE x : HM Q α) (liftE y) := by
  cases h with
  | ok h => exact RelM.pure h
  | error e => exact RelM.raise e

theorem RelM.emit {P : ARel} {ρ : LRel} {k i i' : String} {d d' : List String}
    (h : Spec.Told ρ.name ρ.title ⟨k, i, d⟩ ⟨k, i', d'⟩) :
    RelM P ρ Eq (respond k i d : HM Q Unit) (Broker.respond k i' d') := fun _ _ hs =>
  .ok rfl { hs with outs := List.rel_append hs.outs (.cons h .nil) }

theorem RelM.respond {P : ARel} {ρ : LRel} (k i : String) (d : List String)
    (hk : k ≠ "workers" := by decide) :
    RelM P ρ Eq (respond k i d : HM Q Unit) (Broker.respond k i d) := RelM.emit (.same _ hk)

theorem RelM.respondW {P : ARel} {ρ : LRel} (i : String) (d : List String) :
    RelM P ρ Eq (Broker.respond keyWorkers i d : HM Q Unit) (Broker.respond keyWorkers (ρ.name i) d) :=
  RelM.emit (.worker i d)

theorem RelM.getBind {P : ARel} {ρ : LRel} {B : γ → δ → Prop} {f : HState Q → HM Q γ} {g : HState Q → HM Q δ}
    (h : ∀ s s', HR P ρ s s' → RelRes P ρ B (f s s) (g s' s')) :
    RelM P ρ B ((get : HM Q (HState Q)) >>= f) ((get : HM Q (HState Q)) >>= g) := h

theorem RelM.setBind {P : ARel} {ρ : LRel} {B : γ → δ → Prop} {t t' : HState Q} {f : PUnit → HM Q γ}
    {g : PUnit → HM Q δ} (h : RelRes P ρ B (f ⟨⟩ t) (g ⟨⟩ t')) (s s' : HState Q) :
    RelRes P ρ B (((set t : HM Q PUnit) >>= f) s) (((set t' : HM Q PUnit) >>= g) s') := h

theorem RelM.modify {P : ARel} {ρ : LRel} {f g : HState Q → HState Q}
    (h : ∀ s s', HR P ρ s s' → HR P ρ (f s) (g s')) :
    RelM P ρ Eq (modify f : HM Q PUnit) (modify g) := fun s s' hs => .ok rfl (h s s' hs)

theorem RelM.checkFailureCount {P : ARel} {ρ : LRel} (cfg : HConfig) (r : Req) (t : String) :
    RelM P ρ Eq (checkFailureCount cfg r t : HM Q Bool) (checkFailureCount cfg r t) := by
  refine RelM.getBind fun s s' hs => ?_
  rw [hs.fc]
  by_cases h : s.fc r.rid ≥ cfg.maxFailures
  · rw [if_pos h]
    exact RelM.bindEq (RelM.respond _ _ _)
      (fun _ => RelM.bindEq (RelM.respond _ _ _) (fun _ => RelM.pure rfl)) s s' hs
  · rw [if_neg h]
    exact RelM.pure rfl s s' hs

/-! ## Queue operations -/

/-- Replace the queue. -/
theorem HR.setQueue {P : ARel} {ρ : LRel} {s s' : HState Q} (h : HR P ρ s s') {q q' : Q}
    (hq : LayoutQM.QR ρ q q') (ha : ∀ r, Carries.holds q r → ρ.asked r.headers) :
    HR P ρ { s with queue := q } { s' with queue := q' } :=
  { h with queue := hq, asks := ha }

theorem RelM.qAssign {P : ARel} {ρ : LRel} {env env' : Env} (he : LayoutQM.EnvR Q ρ.sync env env') {w w' : Worker}
    (hw : WN ρ w w') : RelM P ρ Eq (qAssign env w : HM Q _) (qAssign env' w') := by
  refine RelM.getBind fun s s' hs => ?_
  have h := LayoutQM.assignRequest he hs.one hs.good hs.queue hs.asks hw
  refine RelM.bind (RelM.liftE h.keep) ?_ s s' hs
  rintro ⟨r, q⟩ ⟨r', q'⟩ ⟨⟨rfl, h2⟩, hx⟩
  exact RelM.bindEq (RelM.modify fun _ _ h => h.setQueue h2 fun x hq =>
    hs.asks x (Carries.assign hx x (.inr hq))) (fun _ => RelM.pure rfl)

theorem RelM.qFinished {P : ARel} {ρ : LRel} {env env' : Env} (he : LayoutQM.EnvR Q ρ.sync env env') {w w' : Worker}
    (hw : WN ρ w w') : RelM P ρ Eq (qFinished env w : HM Q _) (qFinished env' w') := by
  refine RelM.getBind fun s s' hs => ?_
  have h := LayoutQM.workerFinished he hs.one hs.good hs.queue hs.asks hw
  refine RelM.bind (RelM.liftE h.keep) ?_ s s' hs
  rintro ⟨r, q⟩ ⟨r', q'⟩ ⟨⟨rfl, h2⟩, hx⟩
  exact RelM.bindEq (RelM.modify fun _ _ h => h.setQueue h2 fun x hq =>
    hs.asks x (Carries.finished hx x (.inr hq))) (fun _ => RelM.pure rfl)

theorem RelM.qTerminated {P : ARel} {ρ : LRel} {w w' : Worker}
    (hw : WN ρ w w') : RelM P ρ (fun a b => a = b ∧ ∀ r ∈ a, ρ.asked r.headers)
      (qTerminated w : HM Q _) (qTerminated w') := by
  refine RelM.getBind fun s s' hs => ?_
  have h := LayoutQM.workerTerminated hs.one hs.good hs.queue hs.asks hw
  refine RelM.bind (RelM.liftE h.keep) ?_ s s' hs
  rintro ⟨r, q⟩ ⟨r', q'⟩ ⟨⟨rfl, h2⟩, hx⟩
  exact RelM.bindEq (RelM.modify fun _ _ h => h.setQueue h2 fun x hq =>
    hs.asks x (Carries.terminated hx x (.inr hq)))
    (fun _ => RelM.pure ⟨rfl, fun x hq => hs.asks x (Carries.terminated hx x (.inl hq))⟩)

theorem RelM.qAddWorker {P : ARel} {ρ : LRel} {env env' : Env} (he : LayoutQM.EnvR Q ρ.sync env env') {w w' : Worker}
    (hw : WN ρ w w') (cur : Option Req) (hc : ∀ r, cur = some r → ρ.asked r.headers) :
    RelM P ρ Eq (qAddWorker env w cur : HM Q _) (qAddWorker env' w' cur) := by
  refine RelM.getBind fun s s' hs => ?_
  have h := LayoutQM.addWorker cur he hs.one hs.good hs.queue hs.asks hw
  refine RelM.bind (RelM.liftE h.keep) ?_ s s' hs
  rintro ⟨r, q⟩ ⟨r', q'⟩ ⟨⟨rfl, h2⟩, hx⟩
  exact RelM.bindEq (RelM.modify fun _ _ h => h.setQueue h2 fun x hq =>
    (Carries.add hx x (.inr hq)).elim (hs.asks x) (hc x)) (fun _ => RelM.pure rfl)

theorem RelM.qEnqueue {P : ARel} {ρ : LRel} {env env' : Env} (he : LayoutQM.EnvR Q ρ.sync env env') (r : Req)
    (hr : ρ.asked r.headers) :
    RelM P ρ (fun x y => WNo ρ x.assignedTo y.assignedTo ∧ x.enqueued = y.enqueued)
      (qEnqueue env r : HM Q _) (qEnqueue env' r) := by
  refine RelM.getBind fun s s' hs => ?_
  have h := LayoutQM.enqueueRequest s.clockReads r he hs.one hs.good hs.queue hr
  rw [hs.clockReads]
  refine RelM.bind (RelM.liftE h.keep) ?_ s s' hs
  rintro ⟨_, q⟩ ⟨_, q'⟩ ⟨⟨h1, h2, h3⟩, hx⟩
  have ha : ∀ x, Carries.holds q x → ρ.asked x.headers := fun x hq => by
    rcases Carries.enqueue hx x hq with h | rfl
    · exact hs.asks x h
    · exact hr
  refine RelM.bindEq (RelM.modify fun t t' h => { h with queue := h3, asks := ha, clockReads := ?_ })
    (fun _ => RelM.pure ⟨h1, h2⟩)
  show t'.clockReads + 1 = t.clockReads + 1
  rw [h.clockReads]

theorem RelM.qCurrent {P : ARel} {ρ : LRel} {w w' : Worker} (hw : WN ρ w w') :
    RelM P ρ Eq (qCurrent w : HM Q _) (qCurrent w') := by
  intro s s' hs
  have h := LayoutQM.currentRequest hs.one hs.good hs.queue hw
  exact .ok h.1 (hs.setQueue h.2 fun x hq => hs.asks x (Carries.current _ _ x (.inr hq)))

theorem RelM.qCancelled {P : ARel} {ρ : LRel} {w w' : Worker} (hw : WN ρ w w') :
    RelM P ρ (fun a b => a = b ∧ ∀ r, a = some r → ρ.asked r.headers)
      (qCancelled w : HM Q _) (qCancelled w') := by
  intro s s' hs
  have h := LayoutQM.workerCancelled hs.one hs.good hs.queue hw
  exact .ok ⟨h.1, fun x hq => hs.asks x (Carries.cancelled _ _ x (.inl hq))⟩
    (hs.setQueue h.2 fun x hq => hs.asks x (Carries.cancelled _ _ x (.inr hq)))

theorem RelM.sendRequest {P : ARel} {ρ : LRel} {w w' : Worker} (hw : WN ρ w w') (r : Req) :
    RelM P ρ Eq (sendRequest w r : HM Q _) (sendRequest w' r) := by
  simp only [Broker.sendRequest, hw.identity]
  exact RelM.respondW _ _

theorem RelM.sendIfSome {P : ARel} {ρ : LRel} {w w' : Worker} (hw : WN ρ w w') (o : Option Req) :
    RelM P ρ Eq (sendIfSome w o : HM Q _) (sendIfSome w' o) := by
  cases o with
  | none => exact RelM.pure rfl
  | some r => exact RelM.sendRequest hw r

theorem RelM.reassign {P : ARel} {ρ : LRel} {env env' : Env} (he : LayoutQM.EnvR Q ρ.sync env env') (r : Req)
    (hr : ρ.asked r.headers) :
    RelM P ρ Eq (reassignRequest env r : HM Q _) (reassignRequest env' r) := by
  refine RelM.bind (RelM.qEnqueue he r hr) ?_
  rintro ⟨a, b⟩ ⟨a', b'⟩ ⟨h1, rfl⟩
  cases b with
  | true =>
    cases h1 with
    | none => exact RelM.pure rfl
    | some hw => exact RelM.bindEq (RelM.sendRequest hw r) (fun _ => RelM.pure rfl)
  | false => exact RelM.bindEq (RelM.respond _ _ _) (fun _ => RelM.pure rfl)

/-! ## Client commands -/

theorem RelM.submit {P : ARel} {ρ : LRel} {env env' : Env} (he : LayoutQM.EnvR Q ρ.sync env env')
    (i j : String) (hs : Headers) (md : Metadata) (extra : List String) (ha : ρ.asked hs) :
    RelM P ρ Eq (submit env i j hs md extra : HM Q _) (submit env' i j hs md extra) := by
  refine RelM.getBind fun s s' h => ?_
  have h' : HR P ρ { s with nextRid := s.nextRid + 1, fc := upd s.fc s.nextRid 0 }
      { s' with nextRid := s'.nextRid + 1, fc := upd s'.fc s'.nextRid 0 } :=
    { h with nextRid := by show _ + 1 = _ + 1; rw [h.nextRid]
             fc := by show upd _ _ _ = upd _ _ _; rw [h.nextRid, h.fc] }
  refine RelM.setBind ?_ s s'
  rw [h.nextRid]
  rw [h.nextRid] at h'
  refine RelM.bind (RelM.qEnqueue he _ ha) ?_ _ _ h'
  rintro ⟨a, b⟩ ⟨a', b'⟩ ⟨h1, rfl⟩
  cases b with
  | true =>
    cases h1 with
    | none => exact RelM.respond _ _ _
    | some hw => exact RelM.bindEq (RelM.sendRequest hw _) (fun _ => RelM.respond _ _ _)
  | false => exact RelM.bindEq (RelM.respond _ _ _) (fun _ => RelM.respond _ _ _)

theorem RelM.processEval {P : ARel} {ρ : LRel} {env env' : Env} (he : LayoutQM.EnvR Q ρ.sync env env')
    (i : String) (message : List String)
    (ha : ∀ x, evalHeaders (message.drop 2) [] [] = .ok (some x) → ρ.asked x.1) :
    RelM P ρ Eq (processEval env i message : HM Q _) (processEval env' i message) := by
  refine RelM.bindEq (RelM.respond _ _ _) fun _ => ?_
  cases message[1]? with
  | none => exact RelM.raise _
  | some j =>
    simp only
    cases hv : evalHeaders (message.drop 2) [] [] with
    | error u => exact RelM.undef _
    | ok o =>
      cases o with
      | none => exact RelM.pure rfl
      | some x =>
        refine RelM.getBind fun s s' h => ?_
        rw [h.frozen]
        by_cases hf : s.frozen = true
        · rw [if_pos hf, if_pos hf]; exact (RelM.respond _ _ _ : RelM P ρ _ _ _) s s' h
        · rw [if_neg hf, if_neg hf]; exact RelM.submit he _ _ _ _ _ (ha x hv) s s' h

theorem RelM.processStats {P : ARel} {ρ : LRel} (i : String) :
    RelM P ρ Eq (processStats i : HM Q _) (processStats i) := by
  refine RelM.getBind fun s s' h => ?_
  rw [h.stats, h.frozen]
  exact (RelM.respond _ _ _ : RelM P ρ _ _ _) s s' h

theorem RelM.clientCommand {P : ARel} {ρ : LRel} {env env' : Env} (he : LayoutQM.EnvR Q ρ.sync env env')
    (c i : String) (message : List String)
    (ha : c = "eval" → ∀ x, evalHeaders (message.drop 2) [] [] = .ok (some x) → ρ.asked x.1) :
    RelM P ρ Eq (clientCommand env c i message : HM Q _) (clientCommand env' c i message) := by
  unfold Broker.clientCommand
  split
  · rename_i hc; exact RelM.processEval he _ _ (ha hc)
  · split
    · exact RelM.processStats _
    · split
      · exact RelM.bindEq (RelM.modify fun _ _ h => { h with frozen := rfl })
          (fun _ => RelM.respond _ _ _)
      · split
        · exact RelM.bindEq (RelM.modify fun _ _ h => { h with frozen := rfl })
            (fun _ => RelM.respond _ _ _)
        · exact RelM.pure rfl

/-! ## Worker commands -/

theorem regFind_layout {ρ : LRel} (hi : ∀ {i j : String}, ρ.name i = ρ.name j → i = j) (i : String)
    {l l' : List Worker} (h : List.Forall₂ (WN ρ) l l') :
    WNo ρ (regFind i l) (regFind (ρ.name i) l') := by
  induction h with
  | nil => exact .none
  | @cons x x' t t' hx _ ih =>
    simp only [regFind, List.find?_cons] at ih ⊢
    have e : (x'.identity == ρ.name i) = (x.identity == i) := by
      rw [hx.identity]
      by_cases h : x.identity = i
      · simp [h]
      · have h' : ρ.name x.identity ≠ ρ.name i := fun h' => h (hi h')
        rw [beq_false_of_ne h, beq_false_of_ne h']
    rw [e]
    cases x.identity == i with
    | true => exact .some hx
    | false => exact ih

theorem regRemove_layout {ρ : LRel} (ho : ρ.rel.OneOne) {w w' : Worker} (hw : WN ρ w w')
    {l l' : List Worker} (h : List.Forall₂ (WN ρ) l l') :
    List.Forall₂ (WN ρ) (regRemove w l) (regRemove w' l') := by
  induction h with
  | nil => exact .nil
  | @cons x x' t t' hx ht ih =>
    simp only [regRemove, ← hw.addr_iff ho hx]
    split
    · exact ht
    · exact .cons hx ih

theorem RelM.bumpCount {P : ARel} {ρ : LRel} (r : Req) :
    RelM P ρ Eq (bumpCount r : HM Q _) (bumpCount r) :=
  RelM.modify fun _ _ h => { h with fc := by simp only [h.fc] }

theorem RelM.countFailed {P : ARel} {ρ : LRel} : RelM P ρ Eq (countFailed : HM Q _) countFailed :=
  RelM.modify fun _ _ h => { h with stats := by simp only [h.stats] }

theorem RelM.countEvaluated {P : ARel} {ρ : LRel} : RelM P ρ Eq (countEvaluated : HM Q _) countEvaluated :=
  RelM.modify fun _ _ h => { h with stats := by simp only [h.stats] }

theorem RelM.doneOk {P : ARel} {ρ : LRel} {env env' : Env} (he : LayoutQM.EnvR Q ρ.sync env env') {w w' : Worker}
    (hw : WN ρ w w') (j : String) :
    RelM P ρ Eq (doneOk env w j : HM Q _) (doneOk env' w' j) :=
  RelM.bindEq (RelM.respond _ _ _) fun _ => RelM.bindEq (RelM.qFinished he hw) fun _ =>
    RelM.bindEq (RelM.sendIfSome hw _) fun _ => RelM.countEvaluated

theorem RelM.doneFailed {P : ARel} {ρ : LRel} {env env' : Env} (he : LayoutQM.EnvR Q ρ.sync env env') {w w' : Worker}
    (hw : WN ρ w w') (j text : String) :
    RelM P ρ Eq (doneFailed env w j text : HM Q _) (doneFailed env' w' j text) := by
  refine RelM.bindEq (RelM.respond _ _ _) fun _ => RelM.bind (RelM.qCancelled hw) ?_
  rintro o _ ⟨rfl, -⟩
  cases o with
  | none => exact RelM.undef _
  | some r =>
    exact RelM.bindEq (RelM.bumpCount r) fun _ => RelM.bindEq (RelM.qAssign he hw) fun _ =>
      RelM.bindEq (RelM.sendIfSome hw _) fun _ => RelM.countFailed

theorem RelM.doneInternal {P : ARel} {ρ : LRel} (cfg : HConfig) {env env' : Env}
    (he : LayoutQM.EnvR Q ρ.sync env env') {w w' : Worker} (hw : WN ρ w w') (text : String) :
    RelM P ρ Eq (doneInternal cfg env w text : HM Q _) (doneInternal cfg env' w' text) := by
  refine RelM.bind (RelM.qCancelled hw) ?_
  rintro o _ ⟨rfl, ha⟩
  cases o with
  | none => exact RelM.undef _
  | some r =>
    refine RelM.bindEq (RelM.bumpCount r) fun _ => ?_
    by_cases hc : r.complete = false
    · simp only [if_pos hc]
      exact RelM.bindEq (RelM.respond _ _ _) fun _ => RelM.countFailed
    · simp only [if_neg hc]
      refine RelM.bindEq (RelM.checkFailureCount cfg r text) fun b => ?_
      cases b with
      | true => exact RelM.bindEq (RelM.reassign he r (ha r rfl)) fun _ => RelM.countFailed
      | false => exact RelM.bindEq (RelM.qAssign he hw) fun _ =>
          RelM.bindEq (RelM.sendIfSome hw _) fun _ => RelM.countFailed

theorem RelM.processDone {P : ARel} {ρ : LRel} (cfg : HConfig) {env env' : Env}
    (he : LayoutQM.EnvR Q ρ.sync env env') (i : String) (message : List String) :
    RelM P ρ Eq (processDone cfg env i message : HM Q _) (processDone cfg env' (ρ.name i) message) := by
  refine RelM.getBind fun s s' h => ?_
  have hf := regFind_layout h.inj i h.workers
  generalize regFind i s.workers = o at hf
  generalize regFind (ρ.name i) s'.workers = o' at hf
  cases hf with
  | none => exact RelM.pure rfl s s' h
  | @some w w' hw =>
    have hcur : RelM P ρ Eq (Broker.qCurrent w >>= fun _ => Pure.pure () : HM Q Unit)
        (Broker.qCurrent w' >>= fun _ => Pure.pure ()) :=
      RelM.bindEq (RelM.qCurrent hw) fun _ => RelM.pure rfl
    refine (?_ : RelM P ρ Eq _ _) s s' h
    match message with
    | [] => exact RelM.pure rfl
    | [_] => exact RelM.pure rfl
    | [_, _] => exact RelM.pure rfl
    | _ :: j :: st :: rest =>
      refine RelM.bindEq (RelM.qCurrent hw) fun o => ?_
      cases o with
      | none => exact RelM.undef _
      | some c =>
        simp only
        split
        · exact RelM.pure rfl
        · split
          · exact RelM.bindEq (RelM.doneOk he hw _) fun _ => hcur
          · split
            · match rest with
              | [] => exact RelM.pure rfl
              | [text] => exact RelM.bindEq (RelM.doneInternal cfg he hw _) fun _ => hcur
              | _ :: _ :: _ => exact RelM.pure rfl
            · split
              · match rest with
                | [] => exact RelM.pure rfl
                | [text] => exact RelM.bindEq (RelM.doneFailed he hw _ _) fun _ => hcur
                | _ :: _ :: _ => exact RelM.pure rfl
              · exact hcur

theorem RelM.processPing {P : ARel} {ρ : LRel} (i : String) :
    RelM P ρ Eq (processPing i : HM Q _) (processPing (ρ.name i)) := by
  refine RelM.getBind fun s s' h => ?_
  have hf := regFind_layout h.inj i h.workers
  generalize regFind i s.workers = o at hf
  generalize regFind (ρ.name i) s'.workers = o' at hf
  cases hf with
  | none => exact RelM.respondW _ _ s s' h
  | some hw => exact RelM.respondW _ _ s s' h

/-! ## Registration -/

/-- Corresponding computations, where one more pair of objects may be created. -/
def RelX (ν : String → String) (σ : Prop) (τ : String → String → Prop) (κ : String → Headers → Headers → Prop) (ψ : Headers → Prop) (A : α → β → Prop) (x : HM Q α) (y : HM Q β) : Prop :=
  ∀ r s s', HR (fun _ _ => False) ⟨r, ν, σ, τ, κ, ψ⟩ s s' →
    ∃ r', RelRes (fun _ _ => False) ⟨r', ν, σ, τ, κ, ψ⟩ A (x s) (y s')

theorem RelX.of {ν : String → String} {σ : Prop} {τ : String → String → Prop} {κ : String → Headers → Headers → Prop} {ψ : Headers → Prop} {A : α → β → Prop} {x : HM Q α} {y : HM Q β}
    (h : ∀ r, RelM (fun _ _ => False) ⟨r, ν, σ, τ, κ, ψ⟩ A x y) : RelX ν σ τ κ ψ A x y :=
  fun r s s' hs => ⟨r, h r s s' hs⟩

/-- Hardware groups and headers that let a worker meet the same requirements. -/
def SameOffer (ψ : Headers → Prop) (g g' : String) (hs hs' : Headers) : Prop :=
  ∀ (a b : Nat) (i j d d' : String),
    RelE (fun w w' : Worker => ∀ rs : Headers, ψ rs → w'.checkHeaders rs = w.checkHeaders rs)
      (Worker.create a i g hs d) (Worker.create b j g' hs' d')

theorem SameOffer.refl (ψ : Headers → Prop) (g : String) (hs : Headers) : SameOffer ψ g g hs hs := by
  intro a b i j d d'
  refine RelE.bind (A := Eq) (RelE.refl (fun _ => rfl) _) ?_
  rintro ms _ rfl
  exact .ok fun rs _ => checkHeaders_name (⟨a, i, g, hs, ms, d⟩ : Worker) b j d' rs

theorem SameOffer.mono {ψ φ : Headers → Prop} {g g' : String} {hs hs' : Headers}
    (h : SameOffer φ g g' hs hs')
    (hi : ∀ rs, ψ rs → φ rs) : SameOffer ψ g g' hs hs' := by
  intro a b i j d d'
  have h1 := h a b i j d d'
  generalize Worker.create a i g hs d = x at h1
  generalize Worker.create b j g' hs' d' = y at h1
  cases h1 with
  | ok h2 => exact .ok fun rs hr => h2 rs (hi rs hr)
  | error e => exact .error e

theorem create_layout {ρ : LRel} {a b : Nat} (hab : ρ.rel a b) (i : String) {g g' : String}
    {hs hs' : Headers} (ho : SameOffer ρ.asked g g' hs hs') (hl : ρ.like i hs hs')
    {d d' : String} (hd : ρ.title d d') :
    RelE (WN ρ) (Worker.create a i g hs d) (Worker.create b (ρ.name i) g' hs' d') := by
  have h := ho a b i (ρ.name i) d d'
  generalize hx : Worker.create a i g hs d = x at h
  generalize hy : Worker.create b (ρ.name i) g' hs' d' = y at h
  cases h with
  | error e => exact .error e
  | @ok w w' h =>
    obtain ⟨h1, h2, -, h4, h5⟩ := Worker.create_fields hx
    obtain ⟨k1, k2, -, k4, k5⟩ := Worker.create_fields hy
    refine .ok ⟨?_, ?_, h, ?_, ?_⟩
    · rw [h1, k1]; exact hab
    · rw [h2, k2]
    · rw [h2, h4, k4]; exact hl
    · rw [h5, k5]; exact hd

theorem mem_keys_emplace {V : Type} {m : WMap V} {w : Worker} {v : V} {a : Nat} :
    a ∈ (m.emplace w v).map (·.1.addr) ↔ a = w.addr ∨ a ∈ m.map (·.1.addr) := by
  induction m with
  | nil => simp [WMap.emplace]
  | cons p t ih =>
    obtain ⟨x, u⟩ := p
    simp only [WMap.emplace]
    split
    · rename_i h; simp only [List.map_cons, List.mem_cons, h]; tauto
    · split
      · simp only [List.map_cons, List.mem_cons]
      · simp only [List.map_cons, List.mem_cons, ih]; tauto

theorem mem_keys_put {V : Type} {m : WMap V} {w : Worker} {v : V} {a : Nat} :
    a ∈ (m.put w v).map (·.1.addr) ↔ a = w.addr ∨ a ∈ m.map (·.1.addr) := by
  induction m with
  | nil => simp [WMap.put]
  | cons p t ih =>
    obtain ⟨x, u⟩ := p
    simp only [WMap.put]
    split
    · rename_i h; simp only [List.map_cons, List.mem_cons, h]; tauto
    · split
      · simp only [List.map_cons, List.mem_cons]
      · simp only [List.map_cons, List.mem_cons, ih]; tauto

theorem create_addr {a : Nat} {i g : String} {hs : Headers} {d : String} {w : Worker}
    (h : Worker.create a i g hs d = .ok w) : w.addr = a := by
  unfold Worker.create at h
  cases hm : addMatchers hs (mmEmplace "hwgroup" (.multi g) []) with
  | error e => rw [hm] at h; cases h
  | ok l => rw [hm] at h; cases h; rfl

omit [Carries Q] [LayoutQM Q] in
theorem registerWorker_eq (env : Env) (i g : String) (hs : Headers) (extra : List String) :
    (registerWorker env i g hs extra : HM Q Unit) = (get >>= fun s : HState Q =>
      liftE (Worker.create (env.alloc s.allocs s.addrs) i g hs (initExtra extra "" none).1) >>= fun w => do
        set { s with
          live := upd s.live (env.alloc s.allocs s.addrs) 0, allocs := s.allocs + 1,
          fc := upd s.fc s.nextRid 0, nextRid := s.nextRid + 1, workers := s.workers ++ [w] }
        let req ← qAddWorker env w ((initExtra extra "" none).2.map (Req.incomplete s.nextRid))
        sendIfSome w req
        modify fun s => { s with timers := s.timers.emplace w 0 }) := by
  unfold registerWorker
  refine bind_congr fun s => ?_
  refine bind_congr fun w => ?_
  refine bind_congr fun _ => ?_
  refine bind_congr fun o => ?_
  cases o <;> rfl

theorem RelRes.thenModify {P P' : ARel} {ρ : LRel} {x y : HM Q Unit} {s s' : HState Q}
    {f g : HState Q → HState Q} (h : RelRes P ρ Eq (x s) (y s'))
    (hfg : ∀ t t', HR P ρ t t' → HR P' ρ (f t) (g t')) :
    RelRes P' ρ Eq ((x >>= fun _ => modify f : HM Q Unit) s)
      ((y >>= fun _ => modify g : HM Q Unit) s') := by
  simp only [Bind.bind, EStateM.bind]
  generalize x s = r at h
  generalize y s' = r' at h
  cases h with
  | ok h1 h2 => exact .ok rfl (hfg _ _ h2)
  | error e ho => exact .error e ho

/-- The same addresses, if corresponding addresses are the same. -/
theorem HR.addrs_eq {ρ : LRel} {s s' : HState Q} (h : HR (fun _ _ => False) ρ s s')
    (he : ∀ a b, ρ.rel a b → a = b) : s'.addrs = s.addrs := by
  have h1 : s'.workers.map (·.addr) = s.workers.map (·.addr) := by
    have hw := h.workers
    generalize s.workers = l at hw
    generalize s'.workers = l' at hw
    induction hw with
    | nil => rfl
    | cons hx _ ih => simp only [List.map_cons, ih, he _ _ hx.rel]
  have h2 : s'.timers.map (·.1.addr) = s.timers.map (·.1.addr) := by
    have p1 : (s.timers.map (·.1.addr)).Pairwise (· < ·) := List.pairwise_map.2 h.timers.sorted
    have p2 : (s'.timers.map (·.1.addr)).Pairwise (· < ·) := List.pairwise_map.2 h.timers.sorted'
    refine List.Perm.eq_of_pairwise (le := (· < ·)) (fun a b _ _ h1 h2 => absurd h1 (by omega)) p2 p1 ?_
    refine (List.perm_ext_iff_of_nodup (p2.imp (fun h => Nat.ne_of_lt h))
      (p1.imp (fun h => Nat.ne_of_lt h))).2 fun a => ⟨fun ha => ?_, fun ha => ?_⟩
    · obtain ⟨p, hp, rfl⟩ := List.mem_map.1 ha
      obtain ⟨x, hx⟩ := h.timers.dom' p hp
      have := ((h.dom _ _ hx).resolve_right id).1
      rwa [he _ _ hx] at this
    · obtain ⟨p, hp, rfl⟩ := List.mem_map.1 ha
      obtain ⟨x, hx⟩ := h.timers.dom p hp
      have := ((h.dom _ _ hx).resolve_right id).2
      rwa [← he _ _ hx] at this
  unfold HState.addrs
  rw [h1, h2]

theorem RelX.registerWorker {ν : String → String} {σ : Prop} {τ : String → String → Prop} {κ : String → Headers → Headers → Prop} {ψ : Headers → Prop} {env env' : Env}
    (he : LayoutQM.EnvR Q σ env env') (i : String) {g g' : String}
    {hs hs' : Headers} (ho : SameOffer ψ g g' hs hs') (hl : κ i hs hs') {extra extra' : List String}
    (ht : τ (initExtra extra "" none).1 (initExtra extra' "" none).1)
    (hj : (initExtra extra' "" none).2 = (initExtra extra "" none).2) :
    RelX ν σ τ κ ψ Eq (registerWorker env i g hs extra : HM Q _) (registerWorker env' (ν i) g' hs' extra') := by
  intro r s s' h
  obtain ⟨ρ, hρ⟩ : ∃ ρ : LRel, ρ = ⟨r, ν, σ, τ, κ, ψ⟩ := ⟨_, rfl⟩
  have hν : ρ.name = ν := by rw [hρ]
  have hσ : ρ.sync = σ := by rw [hρ]
  have hτ : ρ.title = τ := by rw [hρ]
  have hκ : ρ.like = κ := by rw [hρ]
  have hψ : ρ.asked = ψ := by rw [hρ]
  rw [← hρ] at h
  rw [← hσ] at he
  rw [← hν]
  obtain ⟨a, ha⟩ : ∃ a, a = env.alloc s.allocs s.addrs := ⟨_, rfl⟩
  obtain ⟨b, hb⟩ : ∃ b, b = env'.alloc s'.allocs s'.addrs := ⟨_, rfl⟩
  have hdom : ∀ x y, ρ.rel x y → x ∈ s.timers.map (·.1.addr) ∧ y ∈ s'.timers.map (·.1.addr) := fun x y hxy =>
    (h.dom x y hxy).resolve_right id
  have hfa : a ∉ s.addrs := by rw [ha]; exact env.alloc_fresh _ _
  have hfb : b ∉ s'.addrs := by rw [hb]; exact env'.alloc_fresh _ _
  have hta : a ∉ s.timers.map (·.1.addr) := fun hm => hfa (List.mem_append.2 (.inr hm))
  have htb : b ∉ s'.timers.map (·.1.addr) := fun hm => hfb (List.mem_append.2 (.inr hm))
  have hna : ∀ y, ¬ ρ.rel a y := fun y hy => hta (hdom _ _ hy).1
  have hnb : ∀ x, ¬ ρ.rel x b := fun x hx => htb (hdom _ _ hx).2
  have hone := h.one.ext hna hnb
  have hgood : LayoutQM.Good Q (ρ.ext a b) := by
    rw [ha, hb]
    exact LayoutQM.good_ext he h.good (fun x y hxy =>
      ⟨List.mem_append.2 (.inr (hdom x y hxy).1), List.mem_append.2 (.inr (hdom x y hxy).2)⟩)
      (fun heq => ⟨h.allocs, h.addrs_eq heq⟩)
  have hlive : ∀ x y, (ρ.ext a b).rel x y → upd s'.live b 0 y = upd s.live a 0 x := by
    rintro x y (hxy | ⟨rfl, rfl⟩)
    · have h1 : x ≠ a := fun e => hna y (e ▸ hxy)
      have h2 : y ≠ b := fun e => hnb x (e ▸ hxy)
      simp only [upd, if_neg h1, if_neg h2]
      exact h.live x y hxy
    · simp only [upd, if_pos]
  refine ⟨r.ext a b, ?_⟩
  have hext : (⟨r.ext a b, ρ.name, σ, τ, κ, ψ⟩ : LRel) = ρ.ext a b := by rw [hρ]; rfl
  rw [hext]
  have hraw : ∀ (d d' : String) (_ : τ d d') (job : Option String), RelRes (fun _ _ => False) (ρ.ext a b) Eq
      ((liftE (Worker.create a i g hs d) >>= fun w => do
        set { s with
          live := upd s.live a 0, allocs := s.allocs + 1, fc := upd s.fc s.nextRid 0,
          nextRid := s.nextRid + 1, workers := s.workers ++ [w] }
        let req ← Broker.qAddWorker env w (job.map (Req.incomplete s.nextRid))
        Broker.sendIfSome w req
        modify fun s => { s with timers := s.timers.emplace w 0 } : HM Q Unit) s)
      ((liftE (Worker.create b (ρ.name i) g' hs' d') >>= fun w => do
        set { s' with
          live := upd s'.live b 0, allocs := s'.allocs + 1, fc := upd s'.fc s'.nextRid 0,
          nextRid := s'.nextRid + 1, workers := s'.workers ++ [w] }
        let req ← Broker.qAddWorker env' w (job.map (Req.incomplete s'.nextRid))
        Broker.sendIfSome w req
        modify fun s => { s with timers := s.timers.emplace w 0 } : HM Q Unit) s') := by
    intro d d' hd job
    have hc : RelE (WN (ρ.ext a b)) (Worker.create a i g hs d) (Worker.create b (ρ.name i) g' hs' d') :=
      create_layout (ρ := ρ.ext a b) (.inr ⟨rfl, rfl⟩) i (by rw [← hψ] at ho; exact ho) (by rw [← hκ] at hl; exact hl) (by rw [← hτ] at hd; exact hd)
    generalize hx : Worker.create a i g hs d = x at hc
    generalize hy : Worker.create b (ρ.name i) g' hs' d' = y at hc
    cases hc with
    | error e => exact .error _ h.outs
    | @ok w w' hw =>
      have hwa : w.addr = a := create_addr hx
      have hwb : w'.addr = b := create_addr hy
      have hset : HR (fun x y => x = a ∧ y = b) (ρ.ext a b)
          { s with live := upd s.live a 0, allocs := s.allocs + 1, fc := upd s.fc s.nextRid 0,
                   nextRid := s.nextRid + 1, workers := s.workers ++ [w] }
          { s' with live := upd s'.live b 0, allocs := s'.allocs + 1, fc := upd s'.fc s'.nextRid 0,
                    nextRid := s'.nextRid + 1, workers := s'.workers ++ [w'] } :=
        { one := hone, inj := h.inj, alike := h.alike, good := hgood
          dom := by
            rintro x y (hxy | hxy)
            · exact .inl (hdom x y hxy)
            · exact .inr hxy
          workers := List.rel_append (h.workers.imp fun _ _ hr => hr.ext a b)
            (.cons hw .nil)
          queue := LayoutQM.ext h.queue hna hnb, asks := h.asks, none := h.none
          timers := h.timers.ext hna hnb
          live := hlive
          fc := by show upd _ _ _ = upd _ _ _; rw [h.nextRid, h.fc]
          nextRid := by show _ + 1 = _ + 1; rw [h.nextRid]
          allocs := by show _ + 1 = _ + 1; rw [h.allocs]
          clockReads := h.clockReads, stats := h.stats, frozen := h.frozen, outs := h.outs }
      have hbody : RelM (fun x y => x = a ∧ y = b) (ρ.ext a b) Eq
          (Broker.qAddWorker env w (job.map (Req.incomplete s.nextRid)) >>= fun req =>
            Broker.sendIfSome w req : HM Q Unit)
          (Broker.qAddWorker env' w' (job.map (Req.incomplete s'.nextRid)) >>= fun req =>
            Broker.sendIfSome w' req) := by
        rw [h.nextRid]
        have hinc : ∀ x, job.map (Req.incomplete s.nextRid) = some x → (ρ.ext a b).asked x.headers := by
          intro x hx
          cases job with
          | none => cases hx
          | some j => cases hx; exact h.none
        exact RelM.bindEq (RelM.qAddWorker (ρ := ρ.ext a b) he hw _ hinc) fun o => RelM.sendIfSome hw o
      have hr := hbody _ _ hset
      have hlast : ∀ t t' : HState Q, HR (fun x y => x = a ∧ y = b) (ρ.ext a b) t t' →
          HR (fun _ _ => False) (ρ.ext a b) { t with timers := t.timers.emplace w 0 }
            { t' with timers := t'.timers.emplace w' 0 } := by
        intro t t' ht
        exact { ht with
          timers := ht.timers.emplace ht.one hw 0
          dom := by
            intro x y hxy
            refine .inl ?_
            rw [mem_keys_emplace, mem_keys_emplace, hwa, hwb]
            rcases ht.dom x y hxy with ⟨h1, h2⟩ | ⟨h1, h2⟩
            · exact ⟨.inr h1, .inr h2⟩
            · exact ⟨.inl h1, .inl h2⟩ }
      have hfin := RelRes.thenModify hr hlast
      rw [bind_assoc, bind_assoc] at hfin
      exact hfin
  show RelRes _ _ _ (Broker.registerWorker env i g hs extra s)
    (Broker.registerWorker env' (ρ.name i) g' hs' extra' s')
  have hex := hraw _ _ ht (initExtra extra "" none).2
  rw [registerWorker_eq, registerWorker_eq, hj]
  rw [ha, hb] at hex ⊢
  exact hex

/-- Introductions of workers that differ in the descriptions, and in hardware groups and headers that do
    not matter. -/
inductive SameIntro (τ : String → String → Prop) (κ : Headers → Headers → Prop) (ψ : Headers → Prop) : List String → List String → Prop
  | nil : SameIntro τ κ ψ [] []
  | one (c : String) : SameIntro τ κ ψ [c] [c]
  | more {c g g' : String} {rest rest' : List String}
    (hh : κ (initHeaders rest []).1 (initHeaders rest' []).1)
    (ho : SameOffer ψ g g' (initHeaders rest []).1 (initHeaders rest' []).1)
    (ht : τ (initExtra (initHeaders rest []).2 "" none).1 (initExtra (initHeaders rest' []).2 "" none).1)
    (hj : (initExtra (initHeaders rest' []).2 "" none).2 =
      (initExtra (initHeaders rest []).2 "" none).2) :
    SameIntro τ κ ψ (c :: g :: rest) (c :: g' :: rest')

theorem SameIntro.refl {τ : String → String → Prop} {κ : Headers → Headers → Prop} {ψ : Headers → Prop} (hτ : ∀ d, τ d d)
    (hκ : ∀ h, κ h h) : (l : List String) → SameIntro τ κ ψ l l
  | [] => .nil
  | [c] => .one c
  | _ :: _ :: _ => .more (hκ _) (.refl _ _ _) (hτ _) rfl

/-- The same message with other identities of workers, or an introduction of a worker that differs in
    the description also. -/
inductive Retold (ν : String → String) (τ : String → String → Prop) (κ : String → Headers → Headers → Prop) (ψ : Headers → Prop) : Msg → Msg → Prop
  | same (m : Msg)
    (h : m.key = "workers" → m.data.head? = some "init" → SameIntro τ (κ m.identity) ψ m.data m.data)
    (ha : m.key = "clients" → m.data.head? = some "eval" →
      ∀ x, evalHeaders (m.data.drop 2) [] [] = .ok (some x) → ψ x.1) :
    Retold ν τ κ ψ m (Spec.nameInp ν m)
  | intro (i : String) {rest rest' : List String}
    (h : SameIntro τ (κ i) ψ ("init" :: rest) ("init" :: rest')) :
    Retold ν τ κ ψ ⟨"workers", i, "init" :: rest⟩ ⟨"workers", ν i, "init" :: rest'⟩

theorem RelX.processInit {ν : String → String} {σ : Prop} {τ : String → String → Prop} {κ : String → Headers → Headers → Prop} {ψ : Headers → Prop} {env env' : Env}
    (he : LayoutQM.EnvR Q σ env env') (i : String)
    {message message' : List String} (hm : SameIntro τ (κ i) ψ message message') :
    RelX ν σ τ κ ψ Eq (processInit env i message : HM Q _) (processInit env' (ν i) message') := by
  cases hm with
  | nil => exact RelX.of fun _ => RelM.pure rfl
  | one _ => exact RelX.of fun _ => RelM.pure rfl
  | @more _ g g' rest rest' hh ho ht hj =>
    intro r s s' h
    have hf := regFind_layout h.inj i h.workers
    show ∃ r', RelRes _ ⟨r', ν, σ, τ, κ, ψ⟩ Eq
      ((match regFind i s.workers with
        | some w =>
          if w.headersEqual (initHeaders rest []).1 then Pure.pure ()
          else do
            notifyError ("Received two different INIT messages from the same worker ("
              ++ w.getDescription ++ ")")
            Broker.registerWorker env i g (initHeaders rest []).1 (initHeaders rest []).2
        | none => Broker.registerWorker env i g (initHeaders rest []).1 (initHeaders rest []).2 :
          HM Q Unit) s)
      ((match regFind (ν i) s'.workers with
        | some w =>
          if w.headersEqual (initHeaders rest' []).1 then Pure.pure ()
          else do
            notifyError ("Received two different INIT messages from the same worker ("
              ++ w.getDescription ++ ")")
            Broker.registerWorker env' (ν i) g' (initHeaders rest' []).1 (initHeaders rest' []).2
        | none => Broker.registerWorker env' (ν i) g' (initHeaders rest' []).1 (initHeaders rest' []).2 :
          HM Q Unit) s')
    have hwi : ∀ w, regFind i s.workers = some w → w.identity = i := fun w hw => by
      simpa using List.find?_some hw
    generalize regFind i s.workers = o at hf hwi
    have hf : WNo ⟨r, ν, σ, τ, κ, ψ⟩ o (regFind (ν i) s'.workers) := hf
    generalize regFind (ν i) s'.workers = o' at hf
    cases hf with
    | none => exact RelX.registerWorker he _ ho hh ht hj r s s' h
    | @some w w' hw =>
      have hwi := hwi w rfl
      have heq : w'.headersEqual (initHeaders rest' []).1 = w.headersEqual (initHeaders rest []).1 := by
        rw [Bool.eq_iff_iff]
        simp only [Worker.headersEqual, beq_iff_eq]
        have hl := hw.like
        rw [hwi] at hl
        exact (h.alike hh hl).symm
      simp only [heq]
      split
      · exact ⟨r, RelM.pure rfl s s' h⟩
      · have h1 : RelM (fun _ _ => False) ⟨r, ν, σ, τ, κ, ψ⟩ Eq
            (notifyError ("Received two different INIT messages from the same worker ("
              ++ w.getDescription ++ ")") : HM Q Unit)
            (notifyError ("Received two different INIT messages from the same worker ("
              ++ w'.getDescription ++ ")")) := by
          refine RelM.emit ?_
          rw [describe_eq, describe_eq, hw.identity]
          exact .twice _ hw.title
        cases h1 s s' h with
        | ok _ hs => exact RelX.registerWorker he _ ho hh ht hj r _ _ hs

theorem RelX.workerCommand {ν : String → String} {σ : Prop} {τ : String → String → Prop} {κ : String → Headers → Headers → Prop} {ψ : Headers → Prop} (cfg : HConfig) {env env' : Env}
    (he : LayoutQM.EnvR Q σ env env')
    (c i : String) {message message' : List String} (hm : c = "init" → SameIntro τ (κ i) ψ message message')
    (hc : c = "init" ∨ message' = message) :
    RelX ν σ τ κ ψ Eq (workerCommand cfg env c i message : HM Q _)
      (workerCommand cfg env' c (ν i) message') := by
  unfold Broker.workerCommand
  split
  · rename_i hn; exact RelX.processInit he _ (hm hn)
  · rename_i hn
    rw [hc.resolve_left hn]
    refine RelX.of fun ρ => ?_
    split
    · exact RelM.processDone cfg he _ _
    · split
      · exact RelM.processPing _
      · split
        · exact RelM.respond _ _ _
        · exact RelM.pure rfl

/-! ## Timer -/

/-- Change liveness and timer of a worker. -/
theorem HR.setTimer {P : ARel} {ρ : LRel} {s s' : HState Q} (h : HR P ρ s s') {w w' : Worker} (hw : WN ρ w w')
    (t : Int) : HR P ρ { s with timers := s.timers.put w t } { s' with timers := s'.timers.put w' t } :=
  { h with
    timers := h.timers.put h.one hw t
    dom := by
      intro x y hxy
      rw [mem_keys_put, mem_keys_put]
      rcases h.dom x y hxy with ⟨h1, h2⟩ | h1
      · exact .inl ⟨.inr h1, .inr h2⟩
      · exact .inr h1 }

theorem HR.setLive {P : ARel} {ρ : LRel} {s s' : HState Q} (h : HR P ρ s s') {w w' : Worker} (hw : WN ρ w w')
    (l : Nat) : HR P ρ { s with live := upd s.live w.addr l } { s' with live := upd s'.live w'.addr l } :=
  { h with
    live := by
      intro x y hxy
      by_cases e : x = w.addr
      · subst e
        have : y = w'.addr := h.one.fn hxy hw.rel
        subst this
        simp only [upd, if_pos]
      · have e' : y ≠ w'.addr := fun e' => e (h.one.inj (e' ▸ hxy) hw.rel)
        simp only [upd, if_neg e, if_neg e']
        exact h.live x y hxy }

theorem RelM.tickWorker {P : ARel} {ρ : LRel} (cfg : HConfig) (time : Int) {w w' : Worker} (hw : WN ρ w w') :
    RelM P ρ Eq (tickWorker cfg time w : HM Q _) (tickWorker cfg time w') := by
  refine RelM.getBind fun s s' h => ?_
  rw [h.timers.getD hw, h.live _ _ hw.rel]
  by_cases ht : s.timers.getD w 0 + time > cfg.pingInterval
  · rw [if_pos ht, if_pos ht]
    exact .ok rfl ((h.setLive hw _).setTimer hw _)
  · rw [if_neg ht, if_neg ht]
    exact .ok rfl (h.setTimer hw _)

theorem RelM.tickWorkers {P : ARel} {ρ : LRel} (cfg : HConfig) (time : Int) {l l' : List Worker}
    (hl : List.Forall₂ (WN ρ) l l') :
    RelM P ρ (List.Forall₂ (WN ρ)) (tickWorkers cfg time l : HM Q _) (tickWorkers cfg time l') := by
  induction hl with
  | nil => exact RelM.pure .nil
  | @cons w w' ws ws' hw _ ih =>
    refine RelM.bindEq (RelM.tickWorker cfg time hw) fun e => RelM.bind ih fun a b hab => ?_
    cases e with
    | true => exact RelM.pure (.cons hw hab)
    | false => exact RelM.pure hab

theorem RelM.settleRequests {P : ARel} {ρ : LRel} (cfg : HConfig) {env env' : Env}
    (he : LayoutQM.EnvR Q ρ.sync env env') (rs : List Req)
    (ha : ∀ r ∈ rs, ρ.asked r.headers) :
    RelM P ρ Eq (settleRequests cfg env rs : HM Q _) (settleRequests cfg env' rs) := by
  induction rs with
  | nil => exact RelM.pure rfl
  | cons r rs ih =>
    have ih := ih fun x hx => ha x (.tail _ hx)
    unfold Broker.settleRequests
    by_cases hc : r.complete = false
    · simp only [if_pos hc]
      exact RelM.bindEq (RelM.respond _ _ _) fun _ => RelM.bindEq (RelM.respond _ _ _) fun _ => ih
    · simp only [if_neg hc]
      refine RelM.bindEq (RelM.checkFailureCount cfg r _) fun b => ?_
      cases b with
      | false => exact ih
      | true =>
        refine RelM.bindEq (RelM.reassign he r (ha r (.head _))) fun b => ?_
        cases b with
        | true => exact RelM.bindEq (RelM.respond _ _ _) fun _ => ih
        | false => exact RelM.bindEq ih fun _ => RelM.pure rfl

theorem RelM.rejectAll {P : ARel} {ρ : LRel} {w w' : Worker} (hw : WN ρ w w') (rs : List Req) :
    RelM P ρ Eq (rejectAll ("Worker " ++ w.getDescription ++ " dieded") rs : HM Q _)
      (rejectAll ("Worker " ++ w'.getDescription ++ " dieded") rs) := by
  rw [describe_eq, describe_eq, hw.identity]
  induction rs with
  | nil => exact RelM.pure rfl
  | cons r rs ih => exact RelM.bindEq (RelM.emit (.lost _ _ hw.title)) fun _ => ih

theorem RelM.expireWorker {P : ARel} {ρ : LRel} (cfg : HConfig) {env env' : Env}
    (he : LayoutQM.EnvR Q ρ.sync env env') {w w' : Worker} (hw : WN ρ w w') :
    RelM P ρ Eq (expireWorker cfg env w : HM Q _) (expireWorker cfg env' w') := by
  refine RelM.bindEq (RelM.modify fun s s' h =>
    { h with workers := regRemove_layout h.one hw h.workers }) fun _ => ?_
  refine RelM.bindEq (RelM.qCurrent hw) fun o => ?_
  have hrest : RelM P ρ Eq
      (do let requests ← Broker.qTerminated w
          let unassigned ← Broker.settleRequests cfg env requests
          Broker.rejectAll ("Worker " ++ w.getDescription ++ " dieded") unassigned : HM Q Unit)
      (do let requests ← Broker.qTerminated w'
          let unassigned ← Broker.settleRequests cfg env' requests
          Broker.rejectAll ("Worker " ++ w'.getDescription ++ " dieded") unassigned) := by
    refine RelM.bind (RelM.qTerminated hw) ?_
    rintro rs _ ⟨rfl, ha⟩
    exact RelM.bindEq (RelM.settleRequests cfg he rs ha) fun _ => RelM.rejectAll hw _
  cases o with
  | none => exact hrest
  | some r => exact RelM.bindEq (RelM.bumpCount r) fun _ => hrest

theorem RelM.expireWorkers {P : ARel} {ρ : LRel} (cfg : HConfig) {env env' : Env}
    (he : LayoutQM.EnvR Q ρ.sync env env') {l l' : List Worker} (hl : List.Forall₂ (WN ρ) l l') :
    RelM P ρ Eq (expireWorkers cfg env l : HM Q _) (expireWorkers cfg env' l') := by
  induction hl with
  | nil => exact RelM.pure rfl
  | cons hw _ ih => exact RelM.bindEq (RelM.expireWorker cfg he hw) fun _ => ih

theorem RelM.countIdle {P : ARel} {ρ : LRel} {l l' : List Worker} (hl : List.Forall₂ (WN ρ) l l') :
    RelM P ρ Eq (countIdle l : HM Q _) (countIdle l') := by
  induction hl with
  | nil => exact RelM.pure rfl
  | cons hw _ ih =>
    exact RelM.bindEq (RelM.qCurrent hw) fun _ => RelM.bindEq ih fun _ => RelM.pure rfl

theorem RelM.updateGauges {P : ARel} {ρ : LRel} : RelM P ρ Eq (updateGauges : HM Q _) updateGauges := by
  refine RelM.getBind fun s s' h => ?_
  rw [LayoutQM.queuedCount h.queue]
  refine RelM.bindEq (RelM.countIdle h.workers) (fun n => ?_) s s' h
  exact RelM.modify fun t t' h => { h with stats := by simp only [h.stats, h.workers.length_eq] }

theorem RelM.processTimer {P : ARel} {ρ : LRel} (cfg : HConfig) {env env' : Env}
    (he : LayoutQM.EnvR Q ρ.sync env env') (d : List String) :
    RelM P ρ Eq (processTimer cfg env d : HM Q _) (processTimer cfg env' d) := by
  match d with
  | [] => exact RelM.undef _
  | f :: _ =>
    refine RelM.bind (A := Eq) (RelM.liftE (RelE.refl (fun _ => rfl) _)) ?_
    rintro t _ rfl
    refine RelM.getBind fun s s' h => ?_
    refine RelM.bind (RelM.tickWorkers cfg t h.workers) (fun a b hab => ?_) s s' h
    exact RelM.bindEq (RelM.expireWorkers cfg he hab) fun _ => RelM.updateGauges

/-! ## Events -/

theorem RelM.touchWorker {P : ARel} {ρ : LRel} (cfg : HConfig) (i : String) :
    RelM P ρ Eq (touchWorker cfg i : HM Q _) (touchWorker cfg (ρ.name i)) := by
  refine RelM.getBind fun s s' h => ?_
  have hf := regFind_layout h.inj i h.workers
  generalize regFind i s.workers = o at hf
  generalize regFind (ρ.name i) s'.workers = o' at hf
  cases hf with
  | none => exact RelM.pure rfl s s' h
  | some hw => exact .ok rfl ((h.setLive hw _).setTimer hw _)

theorem RelX.bindL {ν : String → String} {σ : Prop} {τ : String → String → Prop} {κ : String → Headers → Headers → Prop} {ψ : Headers → Prop} {A : α → β → Prop} {B : γ → δ → Prop} {x : HM Q α} {y : HM Q β}
    {f : α → HM Q γ} {g : β → HM Q δ} (h : ∀ r, RelM (fun _ _ => False) ⟨r, ν, σ, τ, κ, ψ⟩ A x y)
    (hf : ∀ a b, A a b → RelX ν σ τ κ ψ B (f a) (g b)) : RelX ν σ τ κ ψ B (x >>= f) (y >>= g) := by
  intro ρ s s' hs
  have h1 := h ρ s s' hs
  simp only [Bind.bind, EStateM.bind]
  generalize x s = r at h1
  generalize y s' = r' at h1
  cases h1 with
  | ok h2 h3 => exact hf _ _ h2 ρ _ _ h3
  | error e ho => exact ⟨ρ, .error e ho⟩

theorem RelX.onRequest {ν : String → String} {σ : Prop} {τ : String → String → Prop} {κ : String → Headers → Headers → Prop} {ψ : Headers → Prop} (cfg : HConfig) {env env' : Env}
    (he : LayoutQM.EnvR Q σ env env')
    {m m' : Msg} (hm : Retold ν τ κ ψ m m') :
    RelX ν σ τ κ ψ Eq (onRequest cfg env m : HM Q _) (onRequest cfg env' m') := by
  cases hm with
  | @intro i rest rest' h =>
    unfold Broker.onRequest
    rw [if_pos (show (⟨"workers", i, "init" :: rest⟩ : Msg).key = keyWorkers from rfl),
      if_pos (show (⟨"workers", ν i, "init" :: rest'⟩ : Msg).key = keyWorkers from rfl)]
    exact RelX.bindL (A := Eq)
      (fun r => RelM.touchWorker (ρ := ⟨r, ν, σ, τ, κ, ψ⟩) cfg i) fun _ _ _ =>
        RelX.workerCommand cfg he _ _ (fun _ => h) (.inl rfl)
  | same _ hi ha =>
  by_cases hk : m.key = keyWorkers
  · have hn : Spec.nameInp ν m = { m with identity := ν m.identity } := if_pos hk
    rw [hn]
    unfold Broker.onRequest
    rw [if_pos hk, if_pos (show ({ m with identity := ν m.identity } : Msg).key = keyWorkers from hk)]
    refine RelX.bindL (A := Eq)
      (fun r => RelM.touchWorker (ρ := ⟨r, ν, σ, τ, κ, ψ⟩) cfg m.identity) fun _ _ _ => ?_
    simp only
    have hi := hi hk
    cases hd : m.data with
    | nil => exact RelX.of fun _ => RelM.raise _
    | cons c d =>
      rw [hd] at hi
      exact RelX.workerCommand cfg he _ _ (fun hc => hi (by rw [hc]; rfl)) (.inr rfl)
  · have hn : Spec.nameInp ν m = m := if_neg hk
    rw [hn]
    unfold Broker.onRequest
    rw [if_neg hk, if_neg hk]
    refine RelX.of fun r => ?_
    split
    · rename_i hkc
      have ha := ha hkc
      cases hd : m.data with
      | nil => exact RelM.raise _
      | cons c d =>
        rw [hd] at ha
        exact RelM.clientCommand (ρ := ⟨r, ν, σ, τ, κ, ψ⟩) he _ _ _ fun hc => ha (by rw [hc]; rfl)
    · split
      · exact RelM.processTimer (ρ := ⟨r, ν, σ, τ, κ, ψ⟩) cfg he _
      · exact RelM.pure rfl

/-- States that differ in the memory layout and the identities and the descriptions of workers only. -/
def ToldEq (ν : String → String) (σ : Prop) (τ : String → String → Prop) (κ : String → Headers → Headers → Prop) (ψ : Headers → Prop) (s s' : HState Q) : Prop :=
  ∃ r, HR (fun _ _ => False) ⟨r, ν, σ, τ, κ, ψ⟩ { s with outs := [] } { s' with outs := [] }

/-- Results of handling a message that differ in the memory layout and the identities and the
    descriptions of workers only. -/
inductive ToldRes (ν : String → String) (σ : Prop) (τ : String → String → Prop) (κ : String → Headers → Headers → Prop) (ψ : Headers → Prop) :
    EStateM.Result Err (HState Q) Unit → EStateM.Result Err (HState Q) Unit → Prop
  | ok {t t' : HState Q} (ho : List.Forall₂ (Spec.Told ν τ) t.outs t'.outs) (h : ToldEq ν σ τ κ ψ t t') :
    ToldRes ν σ τ κ ψ (.ok () t) (.ok () t')
  | error {t t' : HState Q} (e : Err) (ho : List.Forall₂ (Spec.Told ν τ) t.outs t'.outs) :
    ToldRes ν σ τ κ ψ (.error e t) (.error e t')

theorem step_retold {ν : String → String} {σ : Prop} {τ : String → String → Prop} {κ : String → Headers → Headers → Prop} {ψ : Headers → Prop} (cfg : HConfig)
    {env env' : Env} (he : LayoutQM.EnvR Q σ env env') {m m' : Msg}
    (hm : Retold ν τ κ ψ m m') {s s' : HState Q} (h : ToldEq ν σ τ κ ψ s s') :
    ToldRes ν σ τ κ ψ (step cfg env m s) (step cfg env' m' s') := by
  obtain ⟨r, h⟩ := h
  obtain ⟨r', hr⟩ := RelX.onRequest cfg he hm r _ _ h
  unfold step
  generalize onRequest cfg env m { s with outs := [] } = x at hr
  generalize onRequest cfg env' m' { s' with outs := [] } = x' at hr
  cases hr with
  | ok _ hs => exact .ok hs.outs ⟨r', { hs with outs := .nil }⟩
  | error e ho => exact .error e ho

theorem ToldEq.init {ν : String → String} (hν : ∀ {i j : String}, ν i = ν j → i = j) (σ : Prop)
    (τ : String → String → Prop) {κ : String → Headers → Headers → Prop} {ψ : Headers → Prop}
    (hκ : ∀ {i : String} {h k h' k' : Headers}, κ i h h' → κ i k k' → (h = k ↔ h' = k'))
    (hψ : ψ []) : ToldEq ν σ τ κ ψ (HState.init Q) (HState.init Q) :=
  ⟨fun _ _ => False,
    { one := ⟨fun h => h.elim, fun h => h.elim⟩, inj := hν, alike := hκ, good := LayoutQM.good_empty ν σ τ κ ψ
      dom := fun _ _ h => h.elim, workers := .nil, queue := LayoutQM.empty _
      asks := fun r h => (Carries.empty r h).elim, none := hψ
      timers := MapRel.nil, live := fun _ _ h => h.elim, fc := rfl, nextRid := rfl
      allocs := rfl, clockReads := rfl, stats := rfl, frozen := rfl, outs := .nil }⟩

/-! ## The same descriptions -/

theorem same_headers {h k h' k' : Headers} (e : h = h') (f : k = k') : h = k ↔ h' = k' := by
  rw [e, f]

theorem told_named {ν : String → String} {m m' : Msg} (h : Spec.Told ν Eq m m') :
    Spec.Named ν m m' := by
  cases h with
  | worker i d => exact .worker i d
  | same m h => exact .same m h
  | twice i h => subst h; exact .twice _ _
  | lost j i h => subst h; exact .lost _ _ _

/-- States that differ in the memory layout and the identities of workers only. -/
abbrev NamesEq (ν : String → String) (σ : Prop) (s s' : HState Q) : Prop := ToldEq ν σ Eq (fun _ => Eq) (fun _ => True) s s'

/-- Results of handling a message that differ in the memory layout and the identities of workers
    only. -/
inductive NamesRes (ν : String → String) (σ : Prop) :
    EStateM.Result Err (HState Q) Unit → EStateM.Result Err (HState Q) Unit → Prop
  | ok {t t' : HState Q} (ho : List.Forall₂ (Spec.Named ν) t.outs t'.outs) (h : NamesEq ν σ t t') :
    NamesRes ν σ (.ok () t) (.ok () t')
  | error {t t' : HState Q} (e : Err) (ho : List.Forall₂ (Spec.Named ν) t.outs t'.outs) :
    NamesRes ν σ (.error e t) (.error e t')

theorem step_names {ν : String → String} {σ : Prop} (cfg : HConfig) {env env' : Env}
    (he : LayoutQM.EnvR Q σ env env') (m : Msg) {s s' : HState Q} (h : NamesEq ν σ s s') :
    NamesRes ν σ (step cfg env m s) (step cfg env' (Spec.nameInp ν m) s') := by
  have hr := step_retold cfg he (.same m (fun _ _ => .refl (fun _ => rfl) (fun _ => rfl) _) fun _ _ _ _ => trivial) h
  generalize step cfg env m s = x at hr
  generalize step cfg env' (Spec.nameInp ν m) s' = x' at hr
  cases hr with
  | ok ho hs => exact .ok (ho.imp fun _ _ => told_named) hs
  | error e ho => exact .error e (ho.imp fun _ _ => told_named)

theorem NamesEq.init {ν : String → String} (hν : ∀ {i j : String}, ν i = ν j → i = j) (σ : Prop) :
    NamesEq ν σ (HState.init Q) (HState.init Q) := ToldEq.init hν σ Eq same_headers trivial

/-! ## The same identities -/

theorem named_id {m m' : Msg} (h : Spec.Named id m m') : m' = m := by cases h <;> rfl

theorem nameInp_id (m : Msg) : Spec.nameInp id m = m := by
  unfold Spec.nameInp; split <;> rfl

theorem forall2_named_id {l l' : List Msg} (h : List.Forall₂ (Spec.Named id) l l') : l' = l := by
  induction h with
  | nil => rfl
  | cons h _ ih => rw [named_id h, ih]

/-- States that differ in the memory layout only. -/
abbrev LayoutEq (s s' : HState Q) : Prop := NamesEq id False s s'

/-- Results of handling a message that differ in the memory layout only. -/
inductive LayoutRes : EStateM.Result Err (HState Q) Unit → EStateM.Result Err (HState Q) Unit → Prop
  | ok {t t' : HState Q} (ho : t'.outs = t.outs) (h : LayoutEq t t') : LayoutRes (.ok () t) (.ok () t')
  | error {t t' : HState Q} (e : Err) (ho : t'.outs = t.outs) : LayoutRes (.error e t) (.error e t')

theorem step_layout (cfg : HConfig) {env env' : Env} (he : LayoutQM.EnvR Q False env env') (m : Msg)
    {s s' : HState Q} (h : LayoutEq s s') : LayoutRes (step cfg env m s) (step cfg env' m s') := by
  have hr := step_names cfg he m h
  rw [nameInp_id] at hr
  generalize step cfg env m s = x at hr
  generalize step cfg env' m s' = x' at hr
  cases hr with
  | ok ho h => exact .ok (forall2_named_id ho) h
  | error e ho => exact .error e (forall2_named_id ho)

end Broker
