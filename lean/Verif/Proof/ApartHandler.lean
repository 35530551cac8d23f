import Verif.Proof.Apart
import Verif.Proof.LayoutHandler

/-! # The broker handler with and without the others -/

set_option linter.unusedSectionVars false

namespace Broker

/-- Messages that do not concern us: not to our workers, and not about jobs other than those of the
    others. -/
structure Parts.Foreign (P : Parts) (m : Msg) : Prop where
  worker : m.key = keyWorkers → P.mine m.identity = false
  status : m.key = keyNotifier → ∀ j, m.data.take 4 = ["type", "job-status", "id", j] → P.jobB j
  monitor : m.key = keyMonitor → ∀ j, m.data.head? = some j → P.jobB j

variable {Q : Type} [QueueManager Q] [ApartQM Q] {α β γ δ : Type}

/-- Corresponding states of the handler: `s` with and `s'` without the others.  `X`, `X'`: addresses of
    objects that are not yet in `worker_timers_`. -/
structure SR (P : Parts) (O : List Msg → List Msg → Prop) (X X' : Nat → Prop) (c : Corr)
    (s s' : HState Q) : Prop where
  ok : c.Ok
  good : ApartQM.Good Q c.ρ
  dom : ∀ a b, c.ρ a b → (a ∈ s.timers.map (·.1.addr) ∨ X a) ∧ (b ∈ s'.timers.map (·.1.addr) ∨ X' b)
  domF : ∀ a, c.F a → a ∈ s.timers.map (·.1.addr) ∨ X a
  rdom : ∀ a b, c.σ a b → a < s.nextRid ∧ b < s'.nextRid
  rdomF : ∀ a, c.G a → a < s.nextRid
  workers : Proj (WA P c) (WB P c) s.workers s'.workers
  queue : ApartQM.QR P c s.queue s'.queue
  sorted : s.timers.Sorted
  sorted' : s'.timers.Sorted
  timers : ∀ {w w' : Worker}, WR c.ρ w w' → s'.timers.find w' = s.timers.find w
  live : ∀ a b, c.ρ a b → s'.live b = s.live a
  fc : ∀ a b, c.σ a b → s'.fc b = s.fc a
  frozen : s'.frozen = s.frozen
  outs : O s.outs s'.outs

/-- Whenever `x` succeeds so does `y`, with corresponding results. -/
def RM (P : Parts) (O : List Msg → List Msg → Prop) (X X' : Nat → Prop) (c : Corr)
    (A : α → β → Prop) (x : HM Q α) (y : HM Q β) : Prop :=
  ∀ s s', SR P O X X' c s s' → ∀ a t, x s = .ok a t → ∃ b t', y s' = .ok b t' ∧ A a b ∧ SR P O X X' c t t'

/-- `x` makes no difference. -/
abbrev AM (P : Parts) (O : List Msg → List Msg → Prop) (X X' : Nat → Prop) (c : Corr)
    (A : α → Prop) (x : HM Q α) : Prop :=
  RM P O X X' c (fun a (_ : Unit) => A a) x (pure ())

/-- Both may send the same message. -/
def Same (O : List Msg → List Msg → Prop) : Prop := ∀ {l l'} (m : Msg), O l l' → O (l ++ [m]) (l' ++ [m])

/-- The first one may send messages that do not concern us. -/
def More (P : Parts) (O : List Msg → List Msg → Prop) : Prop :=
  ∀ {l l'} (m : Msg), P.Foreign m → O l l' → O (l ++ [m]) l'

section
variable {P : Parts} {O : List Msg → List Msg → Prop} {X X' : Nat → Prop} {c : Corr}

/-! ## Combinators -/

theorem apart_bind_ok {x : HM Q α} {f : α → HM Q β} {s t : HState Q} {b : β} (h : (x >>= f) s = .ok b t) :
    ∃ a u, x s = .ok a u ∧ f a u = .ok b t := by
  simp only [Bind.bind, EStateM.bind] at h
  cases hx : x s with
  | ok a u => rw [hx] at h; exact ⟨a, u, rfl, h⟩
  | error e u => rw [hx] at h; cases h

theorem apart_ok_bind {x : HM Q α} {f : α → HM Q β} {s u : HState Q} {a : α} (h : x s = .ok a u) :
    (x >>= f) s = f a u := by
  simp only [Bind.bind, EStateM.bind, h]

theorem RM.bind {A : α → β → Prop} {B : γ → δ → Prop} {x : HM Q α} {y : HM Q β} {f : α → HM Q γ}
    {g : β → HM Q δ} (h : RM P O X X' c A x y) (hf : ∀ a b, A a b → RM P O X X' c B (f a) (g b)) :
    RM P O X X' c B (x >>= f) (y >>= g) := by
  intro s s' hs a t ht
  obtain ⟨u, s1, h1, h2⟩ := apart_bind_ok ht
  obtain ⟨v, s1', h3, h4, h5⟩ := h s s' hs u s1 h1
  rw [apart_ok_bind h3]
  exact hf u v h4 s1 s1' h5 a t h2

/-- A part of the computation makes no difference. -/
theorem RM.bindL {A : α → Prop} {B : γ → δ → Prop} {x : HM Q α} {f : α → HM Q γ} {y : HM Q δ}
    (h : AM P O X X' c A x) (hf : ∀ a, A a → RM P O X X' c B (f a) y) :
    RM P O X X' c B (x >>= f) y := by
  intro s s' hs a t ht
  obtain ⟨u, s1, h1, h2⟩ := apart_bind_ok ht
  obtain ⟨v, s1', h3, h4, h5⟩ := h s s' hs u s1 h1
  cases h3
  exact hf u h4 s1 s' h5 a t h2

theorem RM.bindU {B : γ → δ → Prop} {x y : HM Q Unit} {f : Unit → HM Q γ} {g : Unit → HM Q δ}
    (h : RM P O X X' c (fun _ _ => True) x y) (hf : RM P O X X' c B (f ()) (g ())) :
    RM P O X X' c B (x >>= f) (y >>= g) := h.bind fun _ _ _ => hf

theorem RM.bindLU {B : γ → δ → Prop} {x : HM Q Unit} {f : Unit → HM Q γ} {y : HM Q δ}
    (h : AM P O X X' c (fun _ => True) x) (hf : RM P O X X' c B (f ()) y) :
    RM P O X X' c B (x >>= f) y := h.bindL fun _ _ => hf

theorem RM.mono {A B : α → β → Prop} {x : HM Q α} {y : HM Q β} (h : RM P O X X' c A x y)
    (hab : ∀ a b, A a b → B a b) : RM P O X X' c B x y := by
  intro s s' hs a t ht
  obtain ⟨v, s1', h3, h4, h5⟩ := h s s' hs a t ht
  exact ⟨v, s1', h3, hab _ _ h4, h5⟩

theorem RM.pure {A : α → β → Prop} {a : α} {b : β} (h : A a b) :
    RM P O X X' c A (Pure.pure a : HM Q α) (Pure.pure b) := by
  intro s s' hs a' t ht
  cases ht
  exact ⟨b, s', rfl, h, hs⟩

theorem RM.undef {A : α → β → Prop} (u : UB) (y : HM Q β) : RM P O X X' c A (undef u : HM Q α) y := by
  intro s s' hs a t ht; cases ht

theorem RM.raise {A : α → β → Prop} (e : Exn) (y : HM Q β) : RM P O X X' c A (raise e : HM Q α) y := by
  intro s s' hs a t ht; cases ht

theorem RM.getBind {B : γ → δ → Prop} {f : HState Q → HM Q γ} {g : HState Q → HM Q δ}
    (h : ∀ s s', SR P O X X' c s s' → RM P O X X' c B (f s) (g s')) :
    RM P O X X' c B ((get : HM Q (HState Q)) >>= f) ((get : HM Q (HState Q)) >>= g) :=
  fun s s' hs => h s s' hs s s' hs

/-- Exact form for computations that depend on the state they start in. -/
theorem RM.getBind' {B : γ → δ → Prop} {f : HState Q → HM Q γ} {g : HState Q → HM Q δ}
    (h : ∀ s s', SR P O X X' c s s' → ∀ a t, f s s = .ok a t →
      ∃ b t', g s' s' = .ok b t' ∧ B a b ∧ SR P O X X' c t t') :
    RM P O X X' c B ((get : HM Q (HState Q)) >>= f) ((get : HM Q (HState Q)) >>= g) :=
  fun s s' hs => h s s' hs

theorem RM.getL {B : γ → δ → Prop} {f : HState Q → HM Q γ} {y : HM Q δ}
    (h : ∀ s s', SR P O X X' c s s' → RM P O X X' c B (f s) y) :
    RM P O X X' c B ((get : HM Q (HState Q)) >>= f) y :=
  fun s s' hs => h s s' hs s s' hs

theorem RM.modify {f g : HState Q → HState Q}
    (h : ∀ s s', SR P O X X' c s s' → SR P O X X' c (f s) (g s')) :
    RM P O X X' c (fun _ _ => True) (modify f : HM Q PUnit) (modify g) := by
  intro s s' hs a t ht
  cases ht
  exact ⟨⟨⟩, _, rfl, trivial, h s s' hs⟩

theorem AM.modify {f : HState Q → HState Q} (h : ∀ s s', SR P O X X' c s s' → SR P O X X' c (f s) s') :
    AM P O X X' c (fun _ => True) (modify f : HM Q PUnit) := by
  intro s s' hs a t ht
  cases ht
  exact ⟨(), _, rfl, trivial, h s s' hs⟩

theorem RM.respond (hO : Same O) (k i : String) (d : List String) :
    RM P O X X' c (fun _ _ => True) (respond k i d : HM Q Unit) (respond k i d) :=
  RM.modify fun _ _ h => { h with outs := hO _ h.outs }

theorem AM.respond (hO : More P O) {k i : String} {d : List String} (hm : P.Foreign ⟨k, i, d⟩) :
    AM P O X X' c (fun _ => True) (respond k i d : HM Q Unit) :=
  AM.modify fun _ _ h => { h with outs := hO _ hm h.outs }

/-! ### Messages that do not concern us -/

theorem foreign_worker {i : String} (h : P.mine i = false) (d : List String) :
    P.Foreign ⟨keyWorkers, i, d⟩ := by
  refine ⟨fun _ => h, fun e => ?_, fun e => ?_⟩
  · exact absurd (show keyWorkers = keyNotifier from e) (by decide)
  · exact absurd (show keyWorkers = keyMonitor from e) (by decide)

theorem foreign_client (i : String) (d : List String) : P.Foreign ⟨keyClients, i, d⟩ := by
  refine ⟨fun e => ?_, fun e => ?_, fun e => ?_⟩
  · exact absurd (show keyClients = keyWorkers from e) (by decide)
  · exact absurd (show keyClients = keyNotifier from e) (by decide)
  · exact absurd (show keyClients = keyMonitor from e) (by decide)

theorem foreign_monitor {j : String} (h : P.jobB j) (i t : String) :
    P.Foreign ⟨keyMonitor, i, [j, t]⟩ := by
  refine ⟨fun e => ?_, fun e => ?_, fun _ j' e => ?_⟩
  · exact absurd (show keyMonitor = keyWorkers from e) (by decide)
  · exact absurd (show keyMonitor = keyNotifier from e) (by decide)
  · have : j = j' := by simpa using e
    exact this ▸ h

theorem foreign_status {j : String} (h : P.jobB j) (i : String) (l : List String) :
    P.Foreign ⟨keyNotifier, i, "type" :: "job-status" :: "id" :: j :: l⟩ := by
  refine ⟨fun e => ?_, fun _ j' e => ?_, fun e => ?_⟩
  · exact absurd (show keyNotifier = keyWorkers from e) (by decide)
  · have : j = j' := by simpa using e
    exact this ▸ h
  · exact absurd (show keyNotifier = keyMonitor from e) (by decide)

theorem foreign_error (i : String) (l : List String) :
    P.Foreign ⟨keyNotifier, i, "type" :: "error" :: l⟩ := by
  refine ⟨fun e => ?_, fun _ j' e => ?_, fun e => ?_⟩
  · exact absurd (show keyNotifier = keyWorkers from e) (by decide)
  · exact absurd (congrArg (fun l => l[1]?) e) (by simp)
  · exact absurd (show keyNotifier = keyMonitor from e) (by decide)

theorem RM.checkFailureCount (hO : Same O) (cfg : HConfig) {r r' : Req} (hr : RA P c r r') (t : String) :
    RM P O X X' c Eq (checkFailureCount cfg r t : HM Q Bool) (checkFailureCount cfg r' t) := by
  refine RM.getBind fun s s' hs => ?_
  rw [hs.fc _ _ hr.rel, hr.jobId]
  split
  · exact RM.bindU (RM.respond hO _ _ _) (RM.bindU (RM.respond hO _ _ _) (RM.pure rfl))
  · exact RM.pure rfl

theorem AM.checkFailureCount (hO : More P O) (cfg : HConfig) {r : Req} (hr : RB P c r) (t : String) :
    AM P O X X' c (fun _ => True) (checkFailureCount cfg r t : HM Q Bool) := by
  refine RM.getL fun s s' hs => ?_
  split
  · exact RM.bindLU (AM.respond hO (foreign_status hr.job _ _))
      (RM.bindLU (AM.respond hO (foreign_monitor hr.job _ _)) (RM.pure trivial))
  · exact RM.pure trivial

/-! ## Queue operations -/

theorem SR.setQueue {s s' : HState Q} (h : SR P O X X' c s s') {q q' : Q}
    (hq : ApartQM.QR P c q q') : SR P O X X' c { s with queue := q } { s' with queue := q' } :=
  { h with queue := hq }

/-- Unfold a queue operation that may throw. -/
theorem liftE_bind {x : Except Exn α} {f : α → HM Q β} {s t : HState Q} {b : β}
    (h : ((liftE x : HM Q α) >>= f) s = .ok b t) : ∃ a, x = .ok a ∧ f a s = .ok b t := by
  cases x with
  | ok a => exact ⟨a, rfl, h⟩
  | error e => cases h

theorem RM.qAssign (env env' : Env) {w w' : Worker} (hw : WA P c w w') :
    RM P O X X' c (Option.Rel (RA P c)) (qAssign env w : HM Q _) (qAssign env' w') := by
  refine RM.getBind' fun s s' hs a t ht => ?_
  obtain ⟨⟨o, q⟩, h1, h2⟩ := liftE_bind ht
  obtain ⟨o', q', h3, h4, h5⟩ := ApartQM.assignRequest env.srt env'.srt hs.ok hs.good hs.queue hw h1
  cases h2
  simp only [h3]
  exact ⟨o', _, rfl, h4, hs.setQueue h5⟩

theorem RM.qFinished (env env' : Env) {w w' : Worker} (hw : WA P c w w') :
    RM P O X X' c (Option.Rel (RA P c)) (qFinished env w : HM Q _) (qFinished env' w') := by
  refine RM.getBind' fun s s' hs a t ht => ?_
  obtain ⟨⟨o, q⟩, h1, h2⟩ := liftE_bind ht
  obtain ⟨o', q', h3, h4, h5⟩ := ApartQM.workerFinished env.srt env'.srt hs.ok hs.good hs.queue hw h1
  cases h2
  simp only [h3]
  exact ⟨o', _, rfl, h4, hs.setQueue h5⟩

theorem RM.qAddWorker (env env' : Env) {w w' : Worker} (hw : WA P c w w') {cur cur' : Option Req}
    (hcur : Option.Rel (RA P c) cur cur') :
    RM P O X X' c (Option.Rel (RA P c)) (qAddWorker env w cur : HM Q _) (qAddWorker env' w' cur') := by
  refine RM.getBind' fun s s' hs a t ht => ?_
  obtain ⟨⟨o, q⟩, h1, h2⟩ := liftE_bind ht
  obtain ⟨o', q', h3, h4, h5⟩ := ApartQM.addWorker env.srt env'.srt hs.ok hs.good hs.queue hw hcur h1
  cases h2
  simp only [h3]
  exact ⟨o', _, rfl, h4, hs.setQueue h5⟩

theorem RM.qTerminated {w w' : Worker} (hw : WA P c w w') :
    RM P O X X' c (List.Forall₂ (RA P c)) (qTerminated w : HM Q _) (qTerminated w') := by
  refine RM.getBind' fun s s' hs a t ht => ?_
  obtain ⟨⟨o, q⟩, h1, h2⟩ := liftE_bind ht
  obtain ⟨o', q', h3, h4, h5⟩ := ApartQM.workerTerminated hs.ok hs.good hs.queue hw h1
  cases h2
  simp only [h3]
  exact ⟨o', _, rfl, h4, hs.setQueue h5⟩

theorem RM.qEnqueue (env env' : Env) {r r' : Req} (hr : RA P c r r') (hc : r.complete = true) :
    RM P O X X' c (fun x y => Option.Rel (WA P c) x.assignedTo y.assignedTo ∧ y.enqueued = x.enqueued)
      (qEnqueue env r : HM Q _) (qEnqueue env' r') := by
  refine RM.getBind' fun s s' hs a t ht => ?_
  obtain ⟨⟨o, q⟩, h1, h2⟩ := liftE_bind ht
  obtain ⟨o', q', h3, h4, h5, h6⟩ := ApartQM.enqueueRequest _ (env'.clock s'.clockReads) hs.ok hs.good hs.queue hr hc h1
  cases h2
  simp only [h3]
  exact ⟨o', _, rfl, ⟨h4, h5⟩, { hs with queue := h6 }⟩

theorem RM.qCurrent {w w' : Worker} (hw : WA P c w w') :
    RM P O X X' c (Option.Rel (RA P c)) (qCurrent w : HM Q _) (qCurrent w') := by
  intro s s' hs a t ht
  have h := ApartQM.currentRequest hs.ok hs.good hs.queue hw
  cases ht
  exact ⟨_, _, rfl, h.1, hs.setQueue h.2⟩

theorem RM.qCancelled {w w' : Worker} (hw : WA P c w w') :
    RM P O X X' c (Option.Rel (RA P c)) (qCancelled w : HM Q _) (qCancelled w') := by
  intro s s' hs a t ht
  have h := ApartQM.workerCancelled hs.ok hs.good hs.queue hw
  cases ht
  exact ⟨_, _, rfl, h.1, hs.setQueue h.2⟩

theorem AM.qAssign (env : Env) {w : Worker} (hw : WB P c w) :
    AM P O X X' c (fun o => ∀ r ∈ o, RB P c r) (qAssign env w : HM Q _) := by
  intro s s' hs a t ht
  obtain ⟨⟨o, q⟩, h1, h2⟩ := liftE_bind (show (liftE _ >>= _ : HM Q _) s = _ from ht)
  have h3 := ApartQM.assignRequestF env.srt hs.ok hs.good hs.queue hw h1
  cases h2
  exact ⟨(), s', rfl, h3.1, { hs with queue := h3.2 }⟩

theorem AM.qFinished (env : Env) {w : Worker} (hw : WB P c w) :
    AM P O X X' c (fun o => ∀ r ∈ o, RB P c r) (qFinished env w : HM Q _) := by
  intro s s' hs a t ht
  obtain ⟨⟨o, q⟩, h1, h2⟩ := liftE_bind (show (liftE _ >>= _ : HM Q _) s = _ from ht)
  have h3 := ApartQM.workerFinishedF env.srt hs.ok hs.good hs.queue hw h1
  cases h2
  exact ⟨(), s', rfl, h3.1, { hs with queue := h3.2 }⟩

theorem AM.qAddWorker (env : Env) {w : Worker} (hw : WB P c w) {cur : Option Req}
    (hcur : ∀ r ∈ cur, RB P c r) :
    AM P O X X' c (fun o => ∀ r ∈ o, RB P c r) (qAddWorker env w cur : HM Q _) := by
  intro s s' hs a t ht
  obtain ⟨⟨o, q⟩, h1, h2⟩ := liftE_bind (show (liftE _ >>= _ : HM Q _) s = _ from ht)
  have h3 := ApartQM.addWorkerF env.srt hs.ok hs.good hs.queue hw hcur h1
  cases h2
  exact ⟨(), s', rfl, h3.1, { hs with queue := h3.2 }⟩

theorem AM.qTerminated {w : Worker} (hw : WB P c w) :
    AM P O X X' c (fun o => ∀ r ∈ o, RB P c r) (qTerminated w : HM Q _) := by
  intro s s' hs a t ht
  obtain ⟨⟨o, q⟩, h1, h2⟩ := liftE_bind (show (liftE _ >>= _ : HM Q _) s = _ from ht)
  have h3 := ApartQM.workerTerminatedF hs.ok hs.good hs.queue hw h1
  cases h2
  exact ⟨(), s', rfl, h3.1, { hs with queue := h3.2 }⟩

theorem AM.qEnqueue (env : Env) {r : Req} (hr : RB P c r) (hc : r.complete = true) :
    AM P O X X' c (fun o => ∀ w ∈ o.assignedTo, WB P c w) (qEnqueue env r : HM Q _) := by
  intro s s' hs a t ht
  obtain ⟨⟨o, q⟩, h1, h2⟩ := liftE_bind (show (liftE _ >>= _ : HM Q _) s = _ from ht)
  have h3 := ApartQM.enqueueRequestF _ hs.ok hs.good hs.queue hr hc h1
  cases h2
  exact ⟨(), s', rfl, h3.1, { hs with queue := h3.2 }⟩

theorem AM.qCurrent {w : Worker} (hw : WB P c w) :
    AM P O X X' c (fun o => ∀ r ∈ o, RB P c r) (qCurrent w : HM Q _) := by
  intro s s' hs a t ht
  have h := ApartQM.currentRequestF hs.ok hs.good hs.queue hw
  cases ht
  exact ⟨(), s', rfl, h.1, { hs with queue := h.2 }⟩

theorem AM.qCancelled {w : Worker} (hw : WB P c w) :
    AM P O X X' c (fun o => ∀ r ∈ o, RB P c r) (qCancelled w : HM Q _) := by
  intro s s' hs a t ht
  have h := ApartQM.workerCancelledF hs.ok hs.good hs.queue hw
  cases ht
  exact ⟨(), s', rfl, h.1, { hs with queue := h.2 }⟩

theorem RM.sendRequest (hO : Same O) {w w' : Worker} (hw : WA P c w w') {r r' : Req} (hr : RA P c r r') :
    RM P O X X' c (fun _ _ => True) (sendRequest w r : HM Q _) (sendRequest w' r') := by
  simp only [Broker.sendRequest, hw.1.identity, hr.frames]
  exact RM.respond hO _ _ _

theorem AM.sendRequest (hO : More P O) {w : Worker} (hw : WB P c w) (r : Req) :
    AM P O X X' c (fun _ => True) (sendRequest w r : HM Q _) :=
  AM.respond hO (foreign_worker hw.2.1 _)

theorem RM.sendIfSome (hO : Same O) {w w' : Worker} (hw : WA P c w w') {o o' : Option Req}
    (ho : Option.Rel (RA P c) o o') :
    RM P O X X' c (fun _ _ => True) (sendIfSome w o : HM Q _) (sendIfSome w' o') := by
  cases ho with
  | none => exact RM.pure trivial
  | some hr => exact RM.sendRequest hO hw hr

theorem AM.sendIfSome (hO : More P O) {w : Worker} (hw : WB P c w) (o : Option Req) :
    AM P O X X' c (fun _ => True) (sendIfSome w o : HM Q _) := by
  cases o with
  | none => exact RM.pure trivial
  | some r => exact AM.sendRequest hO hw r

theorem RM.reassign (hO : Same O) (env env' : Env) {r r' : Req} (hr : RA P c r r')
    (hc : r.complete = true) :
    RM P O X X' c Eq (reassignRequest env r : HM Q _) (reassignRequest env' r') := by
  refine RM.bind (RM.qEnqueue env env' hr hc) ?_
  rintro ⟨a, b⟩ ⟨a', b'⟩ ⟨h1, rfl⟩
  cases b' with
  | true =>
    cases h1 with
    | none => exact RM.pure rfl
    | some hw => exact RM.bindU (RM.sendRequest hO hw hr) (RM.pure rfl)
  | false =>
    simp only [hr.jobId]
    exact RM.bindU (RM.respond hO _ _ _) (RM.pure rfl)

theorem AM.reassign (hO : More P O) (env : Env) {r : Req} (hr : RB P c r) (hc : r.complete = true) :
    AM P O X X' c (fun _ => True) (reassignRequest env r : HM Q _) := by
  refine RM.bindL (AM.qEnqueue env hr hc) ?_
  rintro ⟨a, b⟩ h
  cases b with
  | true =>
    cases a with
    | none => exact RM.pure trivial
    | some w => exact RM.bindLU (AM.sendRequest hO (h w rfl) r) (RM.pure trivial)
  | false => exact RM.bindLU (AM.respond hO (foreign_monitor hr.job _ _)) (RM.pure trivial)

/-! ## Worker commands -/

theorem regFind_own {i : String} (hi : P.mine i = true) {l l' : List Worker}
    (h : Proj (WA P c) (WB P c) l l') : Option.Rel (WA P c) (regFind i l) (regFind i l') := by
  induction h with
  | nil => exact .none
  | @both x x' t t' hx _ ih =>
    simp only [regFind, List.find?_cons] at ih ⊢
    rw [hx.1.identity]
    cases x.identity == i with
    | true => exact .some hx
    | false => exact ih
  | @skip x t t' hx _ ih =>
    have : (x.identity == i) = false := by
      rw [beq_eq_false_iff_ne]; rintro rfl
      rw [hx.2.1] at hi; cases hi
    simp only [regFind, List.find?_cons, this] at ih ⊢
    exact ih

theorem regFind_oth {i : String} (hi : P.mine i = false) {l l' : List Worker}
    (h : Proj (WA P c) (WB P c) l l') {w : Worker} (hf : regFind i l = some w) : WB P c w := by
  have h1 := List.mem_of_find?_eq_some hf
  have h2 := List.find?_some hf
  rcases h.mem h1 with ⟨b, _, hb⟩ | hb
  · have := hb.2.1
    rw [beq_iff_eq.1 h2, hi] at this; cases this
  · exact hb

theorem regRemove_own (hc : c.Ok) {w w' : Worker} (hw : WA P c w w') {l l' : List Worker}
    (h : Proj (WA P c) (WB P c) l l') : Proj (WA P c) (WB P c) (regRemove w l) (regRemove w' l') := by
  induction h with
  | nil => exact .nil
  | @both x x' t t' hx ht ih =>
    simp only [regRemove, ← hw.1.addr_iff hc.one hx.1]
    split
    · exact ht
    · exact .both hx ih
  | @skip x t t' hx ht ih =>
    rw [regRemove, if_neg (hw.ne hc hx.1)]
    exact .skip hx ih

theorem regRemove_oth (hc : c.Ok) {w : Worker} (hw : WB P c w) {l l' : List Worker}
    (h : Proj (WA P c) (WB P c) l l') : Proj (WA P c) (WB P c) (regRemove w l) l' := by
  induction h with
  | nil => exact .nil
  | @both x x' t t' hx ht ih =>
    rw [regRemove, if_neg (Ne.symm (hx.ne hc hw.1))]
    exact .both hx ih
  | @skip x t t' hx ht ih =>
    rw [regRemove]
    split
    · exact ht
    · exact .skip hx ih

theorem RM.bumpCount {r r' : Req} (hr : RA P c r r') :
    RM P O X X' c (fun _ _ => True) (bumpCount r : HM Q _) (bumpCount r') :=
  RM.modify fun s s' h => { h with
    fc := by
      intro a b hab
      simp only [upd]
      by_cases e : a = r.rid
      · subst e
        have e' : b = r'.rid := h.ok.oner.fn hab hr.rel
        rw [if_pos e', if_pos rfl, h.fc _ _ hr.rel]
      · have e' : b ≠ r'.rid := fun e' => e (h.ok.oner.inj (e' ▸ hab) hr.rel)
        rw [if_neg e', if_neg e, h.fc _ _ hab] }

theorem AM.bumpCount {r : Req} (hr : RB P c r) :
    AM P O X X' c (fun _ => True) (bumpCount r : HM Q _) :=
  AM.modify fun s s' h => { h with
    fc := by
      intro a b hab
      have e : a ≠ r.rid := fun e => h.ok.disr hab (e ▸ hr.rel)
      simp only [upd, if_neg e]
      exact h.fc _ _ hab }

theorem RM.countFailed : RM P O X X' c (fun _ _ => True) (countFailed : HM Q _) countFailed :=
  RM.modify fun _ _ h => { h with }

theorem RM.countEvaluated : RM P O X X' c (fun _ _ => True) (countEvaluated : HM Q _) countEvaluated :=
  RM.modify fun _ _ h => { h with }

theorem AM.countFailed : AM P O X X' c (fun _ => True) (countFailed : HM Q _) :=
  AM.modify fun _ _ h => { h with }

theorem AM.countEvaluated : AM P O X X' c (fun _ => True) (countEvaluated : HM Q _) :=
  AM.modify fun _ _ h => { h with }

theorem RM.doneOk (hO : Same O) (env env' : Env) {w w' : Worker} (hw : WA P c w w') (j : String) :
    RM P O X X' c (fun _ _ => True) (doneOk env w j : HM Q _) (doneOk env' w' j) :=
  RM.bindU (RM.respond hO _ _ _) <| RM.bind (RM.qFinished env env' hw) fun _ _ ho =>
    RM.bindU (RM.sendIfSome hO hw ho) RM.countEvaluated

theorem AM.doneOk (hO : More P O) (env : Env) {w : Worker} (hw : WB P c w) {j : String} (hj : P.jobB j) :
    AM P O X X' c (fun _ => True) (doneOk env w j : HM Q _) :=
  RM.bindLU (AM.respond hO (foreign_status hj _ _)) <| RM.bindL (AM.qFinished env hw) fun _ _ =>
    RM.bindLU (AM.sendIfSome hO hw _) AM.countEvaluated

theorem RM.doneFailed (hO : Same O) (env env' : Env) {w w' : Worker} (hw : WA P c w w')
    (j text : String) :
    RM P O X X' c (fun _ _ => True) (doneFailed env w j text : HM Q _) (doneFailed env' w' j text) := by
  refine RM.bindU (RM.respond hO _ _ _) <| RM.bind (RM.qCancelled hw) fun o o' ho => ?_
  cases ho with
  | none => exact RM.undef _ _
  | some hr =>
    exact RM.bindU (RM.bumpCount hr) <| RM.bind (RM.qAssign env env' hw) fun _ _ ho =>
      RM.bindU (RM.sendIfSome hO hw ho) RM.countFailed

theorem AM.doneFailed (hO : More P O) (env : Env) {w : Worker} (hw : WB P c w) {j : String}
    (hj : P.jobB j) (text : String) :
    AM P O X X' c (fun _ => True) (doneFailed env w j text : HM Q _) := by
  refine RM.bindLU (AM.respond hO (foreign_status hj _ _)) <| RM.bindL (AM.qCancelled hw) fun o ho => ?_
  cases o with
  | none => exact RM.undef _ _
  | some r =>
    exact RM.bindLU (AM.bumpCount (ho r rfl)) <| RM.bindL (AM.qAssign env hw) fun _ _ =>
      RM.bindLU (AM.sendIfSome hO hw _) AM.countFailed

theorem RM.doneInternal (hO : Same O) (cfg : HConfig) (env env' : Env) {w w' : Worker}
    (hw : WA P c w w') (text : String) :
    RM P O X X' c (fun _ _ => True) (doneInternal cfg env w text : HM Q _)
      (doneInternal cfg env' w' text) := by
  refine RM.bind (RM.qCancelled hw) fun o o' ho => ?_
  cases ho with
  | none => exact RM.undef _ _
  | @some r r' hr =>
    refine RM.bindU (RM.bumpCount hr) ?_
    simp only [hr.complete, hr.jobId]
    cases hc : r.complete with
    | false => exact RM.bindU (RM.respond hO _ _ _) RM.countFailed
    | true =>
      simp only [Bool.true_eq_false, if_false]
      refine RM.bind (RM.checkFailureCount hO cfg hr text) ?_
      rintro b _ rfl
      cases b with
      | true => exact RM.bind (RM.reassign hO env env' hr hc) fun _ _ _ => RM.countFailed
      | false => exact RM.bind (RM.qAssign env env' hw) fun _ _ ho =>
          RM.bindU (RM.sendIfSome hO hw ho) RM.countFailed

theorem AM.doneInternal (hO : More P O) (cfg : HConfig) (env : Env) {w : Worker}
    (hw : WB P c w) (text : String) :
    AM P O X X' c (fun _ => True) (doneInternal cfg env w text : HM Q _) := by
  refine RM.bindL (AM.qCancelled hw) fun o ho => ?_
  cases o with
  | none => exact RM.undef _ _
  | some r =>
    have hr := ho r rfl
    refine RM.bindLU (AM.bumpCount hr) ?_
    cases hc : r.complete with
    | false => exact RM.bindLU (AM.respond hO (foreign_status hr.job _ _)) AM.countFailed
    | true =>
      simp only [Bool.true_eq_false, if_false]
      refine RM.bindL (AM.checkFailureCount hO cfg hr text) ?_
      intro b _
      cases b with
      | true => exact RM.bindL (AM.reassign hO env hr hc) fun _ _ => AM.countFailed
      | false => exact RM.bindL (AM.qAssign env hw) fun _ _ =>
          RM.bindLU (AM.sendIfSome hO hw _) AM.countFailed

theorem RM.processDone (hO : Same O) (cfg : HConfig) (env env' : Env) {i : String}
    (hi : P.mine i = true) (message : List String) :
    RM P O X X' c (fun _ _ => True) (processDone cfg env i message : HM Q _)
      (processDone cfg env' i message) := by
  refine RM.getBind fun s s' h => ?_
  have hf := regFind_own hi h.workers
  generalize regFind i s.workers = o at hf
  generalize regFind i s'.workers = o' at hf
  cases hf with
  | none => exact RM.pure trivial
  | @some w w' hw =>
    have hcur : RM P O X X' c (fun _ _ => True) (Broker.qCurrent w >>= fun _ => Pure.pure () : HM Q Unit)
        (Broker.qCurrent w' >>= fun _ => Pure.pure ()) :=
      RM.bind (RM.qCurrent hw) fun _ _ _ => RM.pure trivial
    match message with
    | [] => exact RM.pure trivial
    | [_] => exact RM.pure trivial
    | [_, _] => exact RM.pure trivial
    | _ :: j :: st :: rest =>
      refine RM.bind (RM.qCurrent hw) fun o o' ho => ?_
      cases ho with
      | none => exact RM.undef _ _
      | @some r r' hr =>
        simp only [hr.jobId]
        split
        · exact RM.pure trivial
        · split
          · exact RM.bindU (RM.doneOk hO env env' hw _) hcur
          · split
            · match rest with
              | [] => exact RM.pure trivial
              | [text] => exact RM.bindU (RM.doneInternal hO cfg env env' hw _) hcur
              | _ :: _ :: _ => exact RM.pure trivial
            · split
              · match rest with
                | [] => exact RM.pure trivial
                | [text] => exact RM.bindU (RM.doneFailed hO env env' hw _ _) hcur
                | _ :: _ :: _ => exact RM.pure trivial
              · exact hcur

theorem AM.processDone (hO : More P O) (cfg : HConfig) (env : Env) {i : String}
    (hi : P.mine i = false) (message : List String) :
    AM P O X X' c (fun _ => True) (processDone cfg env i message : HM Q _) := by
  refine RM.getL fun s s' h => ?_
  cases hf : regFind i s.workers with
  | none => exact RM.pure trivial
  | some w =>
    have hw := regFind_oth hi h.workers hf
    have hcur : AM P O X X' c (fun _ => True) (Broker.qCurrent w >>= fun _ => Pure.pure () : HM Q Unit) :=
      RM.bindL (AM.qCurrent hw) fun _ _ => RM.pure trivial
    match message with
    | [] => exact RM.pure trivial
    | [_] => exact RM.pure trivial
    | [_, _] => exact RM.pure trivial
    | _ :: j :: st :: rest =>
      refine RM.bindL (AM.qCurrent hw) fun o ho => ?_
      cases o with
      | none => exact RM.undef _ _
      | some r =>
        have hr := ho r rfl
        simp only
        split
        · exact RM.pure trivial
        · rename_i hj
          have hj : P.jobB j := by
            have : j = r.jobId := Decidable.of_not_not hj
            rw [this]; exact hr.job
          split
          · exact RM.bindLU (AM.doneOk hO env hw hj) hcur
          · split
            · match rest with
              | [] => exact RM.pure trivial
              | [text] => exact RM.bindLU (AM.doneInternal hO cfg env hw _) hcur
              | _ :: _ :: _ => exact RM.pure trivial
            · split
              · match rest with
                | [] => exact RM.pure trivial
                | [text] => exact RM.bindLU (AM.doneFailed hO env hw hj _) hcur
                | _ :: _ :: _ => exact RM.pure trivial
              · exact hcur

theorem RM.processPing (hO : Same O) {i : String} (hi : P.mine i = true) :
    RM P O X X' c (fun _ _ => True) (processPing i : HM Q _) (processPing i) := by
  refine RM.getBind fun s s' h => ?_
  have hf := regFind_own hi h.workers
  generalize regFind i s.workers = o at hf
  generalize regFind i s'.workers = o' at hf
  cases hf with
  | none => exact RM.respond hO _ _ _
  | some hw => exact RM.respond hO _ _ _

theorem AM.processPing (hO : More P O) {i : String} (hi : P.mine i = false) :
    AM P O X X' c (fun _ => True) (processPing i : HM Q _) := by
  refine RM.getL fun s s' h => ?_
  cases regFind i s.workers with
  | none => exact AM.respond hO (foreign_worker hi _)
  | some w => exact AM.respond hO (foreign_worker hi _)

/-! ## Timer -/

theorem SR.setTimer {s s' : HState Q} (h : SR P O X X' c s s') {w w' : Worker} (hw : WA P c w w')
    (t : Int) : SR P O X X' c { s with timers := s.timers.put w t } { s' with timers := s'.timers.put w' t } :=
  { h with
    dom := by
      intro x y hxy
      rw [mem_keys_put, mem_keys_put]
      obtain ⟨h1, h2⟩ := h.dom x y hxy
      exact ⟨h1.imp .inr id, h2.imp .inr id⟩
    domF := by
      intro x hx
      rw [mem_keys_put]
      exact (h.domF x hx).imp .inr id
    sorted := h.sorted.put _ _
    sorted' := h.sorted'.put _ _
    timers := by
      intro x x' hx
      by_cases e : x.addr = w.addr
      · have e' := (hw.1.addr_iff h.ok.one hx).1 e
        rw [WMap.find_addr e, WMap.find_addr e', WMap.find_put_self, WMap.find_put_self]
      · have e' : x'.addr ≠ w'.addr := fun e' => e ((hw.1.addr_iff h.ok.one hx).2 e')
        rw [WMap.find_put_of_ne e, WMap.find_put_of_ne e', h.timers hx] }

theorem SR.setTimerF {s s' : HState Q} (h : SR P O X X' c s s') {w : Worker} (hw : WB P c w)
    (t : Int) : SR P O X X' c { s with timers := s.timers.put w t } s' :=
  { h with
    dom := by
      intro x y hxy
      rw [mem_keys_put]
      obtain ⟨h1, h2⟩ := h.dom x y hxy
      exact ⟨h1.imp .inr id, h2⟩
    domF := by
      intro x hx
      rw [mem_keys_put]
      exact (h.domF x hx).imp .inr id
    sorted := h.sorted.put _ _
    timers := by
      intro x x' hx
      have e : x.addr ≠ w.addr := fun e => h.ok.dis hx.rel (e ▸ hw.1)
      rw [WMap.find_put_of_ne e, h.timers hx] }

theorem SR.setLive {s s' : HState Q} (h : SR P O X X' c s s') {w w' : Worker} (hw : WA P c w w')
    (l : Nat) : SR P O X X' c { s with live := upd s.live w.addr l } { s' with live := upd s'.live w'.addr l } :=
  { h with
    live := by
      intro x y hxy
      by_cases e : x = w.addr
      · subst e
        have : y = w'.addr := h.ok.one.fn hxy hw.1.rel
        subst this
        simp only [upd, if_pos]
      · have e' : y ≠ w'.addr := fun e' => e (h.ok.one.inj (e' ▸ hxy) hw.1.rel)
        simp only [upd, if_neg e, if_neg e']
        exact h.live x y hxy }

theorem SR.setLiveF {s s' : HState Q} (h : SR P O X X' c s s') {w : Worker} (hw : WB P c w)
    (l : Nat) : SR P O X X' c { s with live := upd s.live w.addr l } s' :=
  { h with
    live := by
      intro x y hxy
      have e : x ≠ w.addr := fun e => h.ok.dis hxy (e ▸ hw.1)
      simp only [upd, if_neg e]
      exact h.live x y hxy }

theorem RM.tickWorker (cfg : HConfig) (time : Int) {w w' : Worker} (hw : WA P c w w') :
    RM P O X X' c Eq (tickWorker cfg time w : HM Q _) (tickWorker cfg time w') := by
  refine RM.getBind' fun s s' h a t ht => ?_
  have e : s'.timers.getD w' 0 = s.timers.getD w 0 := by rw [WMap.getD, WMap.getD, h.timers hw.1]
  simp only [e, h.live _ _ hw.1.rel] at ht ⊢
  generalize szDec (s.live w.addr) = l at ht ⊢
  by_cases hp : s.timers.getD w 0 + time > cfg.pingInterval
  · rw [if_pos hp] at ht ⊢
    cases ht
    exact ⟨_, _, rfl, rfl, (h.setLive hw _).setTimer hw _⟩
  · rw [if_neg hp] at ht ⊢
    cases ht
    exact ⟨_, _, rfl, rfl, h.setTimer hw _⟩

theorem AM.tickWorker (cfg : HConfig) (time : Int) {w : Worker} (hw : WB P c w) :
    AM P O X X' c (fun _ => True) (tickWorker cfg time w : HM Q _) := by
  intro s s' h a t ht
  replace ht : (if s.timers.getD w 0 + time > cfg.pingInterval then do
      set { s with live := upd s.live w.addr (szDec (s.live w.addr)), timers := s.timers.put w 0 }
      return decide (szDec (s.live w.addr) ≤ 0)
    else do
      set { s with timers := s.timers.put w (s.timers.getD w 0 + time) }
      return false : HM Q Bool) s = .ok a t := ht
  generalize szDec (s.live w.addr) = l at ht
  by_cases hp : s.timers.getD w 0 + time > cfg.pingInterval
  · rw [if_pos hp] at ht
    cases ht
    exact ⟨_, _, rfl, trivial, (h.setLiveF hw _).setTimerF hw _⟩
  · rw [if_neg hp] at ht
    cases ht
    exact ⟨_, _, rfl, trivial, h.setTimerF hw _⟩

theorem RM.tickWorkers (cfg : HConfig) (time : Int) {l l' : List Worker}
    (hl : Proj (WA P c) (WB P c) l l') :
    RM P O X X' c (Proj (WA P c) (WB P c)) (tickWorkers cfg time l : HM Q _) (tickWorkers cfg time l') := by
  induction hl with
  | nil => exact RM.pure .nil
  | both hw _ ih =>
    refine RM.bind (RM.tickWorker cfg time hw) ?_
    rintro e _ rfl
    refine RM.bind ih fun a b hab => ?_
    cases e with
    | true => exact RM.pure (.both hw hab)
    | false => exact RM.pure hab
  | @skip w l l' hw _ ih =>
    refine RM.bindL (AM.tickWorker cfg time hw) fun e _ => ?_
    have h2 : (Broker.tickWorkers cfg time l' : HM Q _) = Broker.tickWorkers cfg time l' >>= fun x => Pure.pure x := by simp
    rw [h2]
    refine RM.bind ih fun a b hab => ?_
    cases e with
    | true => exact RM.pure (.skip hw hab)
    | false => exact RM.pure hab

theorem RM.settleRequests (hO : Same O) (cfg : HConfig) (env env' : Env) {rs rs' : List Req}
    (h : List.Forall₂ (RA P c) rs rs') :
    RM P O X X' c (List.Forall₂ (RA P c)) (settleRequests cfg env rs : HM Q _)
      (settleRequests cfg env' rs') := by
  induction h with
  | nil => exact RM.pure .nil
  | @cons r r' rs rs' hr _ ih =>
    unfold Broker.settleRequests
    simp only [hr.complete, hr.jobId]
    cases hc : r.complete with
    | false => exact RM.bindU (RM.respond hO _ _ _) (RM.bindU (RM.respond hO _ _ _) ih)
    | true =>
      simp only [Bool.true_eq_false, if_false]
      refine RM.bind (RM.checkFailureCount hO cfg hr _) ?_
      rintro b _ rfl
      cases b with
      | false => exact ih
      | true =>
        refine RM.bind (RM.reassign hO env env' hr hc) ?_
        rintro b _ rfl
        cases b with
        | true => exact RM.bindU (RM.respond hO _ _ _) ih
        | false => exact RM.bind ih fun _ _ h => RM.pure (.cons hr h)

theorem AM.settleRequests (hO : More P O) (cfg : HConfig) (env : Env) {rs : List Req}
    (h : ∀ r ∈ rs, RB P c r) :
    AM P O X X' c (fun l => ∀ r ∈ l, RB P c r) (settleRequests cfg env rs : HM Q _) := by
  induction rs with
  | nil => exact RM.pure (by simp)
  | cons r rs ih =>
    have hr := h r (by simp)
    have ih := ih fun x hx => h x (by simp [hx])
    unfold Broker.settleRequests
    cases hc : r.complete with
    | false =>
      exact RM.bindLU (AM.respond hO (foreign_status hr.job _ _))
        (RM.bindLU (AM.respond hO (foreign_monitor hr.job _ _)) ih)
    | true =>
      simp only [Bool.true_eq_false, if_false]
      refine RM.bindL (AM.checkFailureCount hO cfg hr _) fun b _ => ?_
      cases b with
      | false => exact ih
      | true =>
        refine RM.bindL (AM.reassign hO env hr hc) fun b _ => ?_
        cases b with
        | true => exact RM.bindLU (AM.respond hO (foreign_monitor hr.job _ _)) ih
        | false =>
          refine RM.bindL ih fun l hl => RM.pure ?_
          intro x hx
          rcases List.mem_cons.1 hx with rfl | hx
          · exact hr
          · exact hl x hx

theorem RM.rejectAll (hO : Same O) (d : String) {rs rs' : List Req}
    (h : List.Forall₂ (RA P c) rs rs') :
    RM P O X X' c (fun _ _ => True) (rejectAll d rs : HM Q _) (rejectAll d rs') := by
  induction h with
  | nil => exact RM.pure trivial
  | cons hr _ ih =>
    unfold Broker.rejectAll
    simp only [hr.jobId]
    exact RM.bindU (RM.respond hO _ _ _) ih

theorem AM.rejectAll (hO : More P O) (d : String) {rs : List Req} (h : ∀ r ∈ rs, RB P c r) :
    AM P O X X' c (fun _ => True) (rejectAll d rs : HM Q _) := by
  induction rs with
  | nil => exact RM.pure trivial
  | cons r rs ih =>
    exact RM.bindLU (AM.respond hO (foreign_status (h r (by simp)).job _ _))
      (ih fun x hx => h x (by simp [hx]))

theorem RM.expireWorker (hO : Same O) (cfg : HConfig) (env env' : Env) {w w' : Worker}
    (hw : WA P c w w') :
    RM P O X X' c (fun _ _ => True) (expireWorker cfg env w : HM Q _) (expireWorker cfg env' w') := by
  refine RM.bindU (RM.modify fun s s' h => { h with workers := regRemove_own h.ok hw h.workers }) ?_
  refine RM.bind (RM.qCurrent hw) fun o o' ho => ?_
  have hrest : RM P O X X' c (fun _ _ => True)
      (do let requests ← Broker.qTerminated w
          let unassigned ← Broker.settleRequests cfg env requests
          Broker.rejectAll ("Worker " ++ w.getDescription ++ " dieded") unassigned : HM Q Unit)
      (do let requests ← Broker.qTerminated w'
          let unassigned ← Broker.settleRequests cfg env' requests
          Broker.rejectAll ("Worker " ++ w'.getDescription ++ " dieded") unassigned) := by
    rw [hw.1.getDescription]
    exact RM.bind (RM.qTerminated hw) fun _ _ h => RM.bind (RM.settleRequests hO cfg env env' h)
      fun _ _ h => RM.rejectAll hO _ h
  cases ho with
  | none => exact hrest
  | some hr => exact RM.bindU (RM.bumpCount hr) hrest

theorem AM.expireWorker (hO : More P O) (cfg : HConfig) (env : Env) {w : Worker} (hw : WB P c w) :
    AM P O X X' c (fun _ => True) (expireWorker cfg env w : HM Q _) := by
  refine RM.bindLU (AM.modify fun s s' h => { h with workers := regRemove_oth h.ok hw h.workers }) ?_
  refine RM.bindL (AM.qCurrent hw) fun o ho => ?_
  have hrest : AM P O X X' c (fun _ => True)
      (do let requests ← Broker.qTerminated w
          let unassigned ← Broker.settleRequests cfg env requests
          Broker.rejectAll ("Worker " ++ w.getDescription ++ " dieded") unassigned : HM Q Unit) :=
    RM.bindL (AM.qTerminated hw) fun _ h => RM.bindL (AM.settleRequests hO cfg env h)
      fun _ h => AM.rejectAll hO _ h
  cases o with
  | none => exact hrest
  | some r => exact RM.bindLU (AM.bumpCount (ho r rfl)) hrest

theorem RM.expireWorkers (hO : Same O) (hO' : More P O) (cfg : HConfig) (env env' : Env)
    {l l' : List Worker} (hl : Proj (WA P c) (WB P c) l l') :
    RM P O X X' c (fun _ _ => True) (expireWorkers cfg env l : HM Q _) (expireWorkers cfg env' l') := by
  induction hl with
  | nil => exact RM.pure trivial
  | both hw _ ih => exact RM.bindU (RM.expireWorker hO cfg env env' hw) ih
  | skip hw _ ih => exact RM.bindLU (AM.expireWorker hO' cfg env hw) ih

theorem RM.countIdle {l l' : List Worker} (hl : Proj (WA P c) (WB P c) l l') :
    RM P O X X' c (fun _ _ => True) (countIdle l : HM Q _) (countIdle l') := by
  induction hl with
  | nil => exact RM.pure trivial
  | both hw _ ih =>
    exact RM.bind (RM.qCurrent hw) fun _ _ _ => RM.bind ih fun _ _ _ => RM.pure trivial
  | @skip w l l' hw _ ih =>
    refine RM.bindL (AM.qCurrent hw) fun _ _ => ?_
    have h2 : (Broker.countIdle l' : HM Q _) = Broker.countIdle l' >>= fun x => Pure.pure x := by simp
    rw [h2]
    exact RM.bind ih fun _ _ _ => RM.pure trivial

theorem RM.updateGauges : RM P O X X' c (fun _ _ => True) (updateGauges : HM Q _) updateGauges := by
  refine RM.getBind fun s s' h => ?_
  exact RM.bind (RM.countIdle h.workers) fun _ _ _ => RM.modify fun t t' h => { h with }

theorem RM.processTimer (hO : Same O) (hO' : More P O) (cfg : HConfig) (env env' : Env)
    (d : List String) :
    RM P O X X' c (fun _ _ => True) (processTimer cfg env d : HM Q _) (processTimer cfg env' d) := by
  match d with
  | [] => exact RM.undef _ _
  | f :: _ =>
    unfold Broker.processTimer
    simp only
    cases stoll f with
    | error e => exact RM.raise _ _
    | ok t =>
      have e : (liftE (.ok t) : HM Q Int) = Pure.pure t := rfl
      rw [e, pure_bind, pure_bind]
      refine RM.getBind fun s s' h => ?_
      exact RM.bind (RM.tickWorkers cfg t h.workers) fun _ _ hab =>
        RM.bindU (RM.expireWorkers hO hO' cfg env env' hab) RM.updateGauges

theorem RM.touchWorker (cfg : HConfig) {i : String} (hi : P.mine i = true) :
    RM P O X X' c (fun _ _ => True) (touchWorker cfg i : HM Q _) (touchWorker cfg i) := by
  refine RM.getBind' fun s s' h a t ht => ?_
  have hf := regFind_own hi h.workers
  generalize regFind i s.workers = o at hf ht
  generalize regFind i s'.workers = o' at hf
  cases hf with
  | none => cases ht; exact ⟨_, _, rfl, trivial, h⟩
  | some hw =>
    cases ht
    exact ⟨_, _, rfl, trivial, (h.setLive hw _).setTimer hw _⟩

theorem AM.touchWorker (cfg : HConfig) {i : String} (hi : P.mine i = false) :
    AM P O X X' c (fun _ => True) (touchWorker cfg i : HM Q _) := by
  intro s s' h a t ht
  change (match regFind i s.workers with | none => _ | some w => _ : HM Q Unit) s = _ at ht
  cases hf : regFind i s.workers with
  | none => rw [hf] at ht; cases ht; exact ⟨_, _, rfl, trivial, h⟩
  | some w =>
    have hw := regFind_oth hi h.workers hf
    rw [hf] at ht
    cases ht
    exact ⟨_, _, rfl, trivial, (h.setLiveF hw _).setTimerF hw _⟩

end

end Broker
