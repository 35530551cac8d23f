import Verif.Proof.LogRun
import Verif.Spec.Journal
import Verif.Proof.PolicyLaws
import Verif.Proof.MultiLaws
import Verif.Proof.SingleLaws
import Verif.Props.Matching

/-!
# The entries written for a message
-/

set_option linter.unusedSectionVars false

namespace Broker

open LawfulQM

variable {Q α β : Type}

/-! ## Partial correctness of computations with a logger -/

/-- If the computation ends normally, the postcondition holds. -/
def Ends (x : LM Q α) (s : LState Q) (P : α → LState Q → Prop) : Prop :=
  ∀ a t, x s = .ok a t → P a t

/-- The same for computations without one. -/
def EndsH (y : HM Q α) (h : HState Q) (P : α → HState Q → Prop) : Prop :=
  ∀ a h', y h = .ok a h' → P a h'

theorem ends_bind {x : LM Q α} {f : α → LM Q β} {s : LState Q} {P : β → LState Q → Prop}
    (h : Ends x s fun a t => Ends (f a) t P) : Ends (x >>= f) s P := by
  intro b t he
  simp only [bind, EStateM.bind] at he
  cases hx : x s with
  | error e u => rw [hx] at he; cases he
  | ok a u => rw [hx] at he; exact h a u hx b t he

theorem endsH_bind {x : HM Q α} {f : α → HM Q β} {s : HState Q} {P : β → HState Q → Prop}
    (h : EndsH x s fun a t => EndsH (f a) t P) : EndsH (x >>= f) s P := by
  intro b t he
  simp only [bind, EStateM.bind] at he
  cases hx : x s with
  | error e u => rw [hx] at he; cases he
  | ok a u => rw [hx] at he; exact h a u hx b t he

theorem Ends.mono {x : LM Q α} {s : LState Q} {P P' : α → LState Q → Prop} (h : Ends x s P)
    (hp : ∀ a t, P a t → P' a t) : Ends x s P' := fun a t he => hp a t (h a t he)

theorem EndsH.mono {x : HM Q α} {s : HState Q} {P P' : α → HState Q → Prop} (h : EndsH x s P)
    (hp : ∀ a t, P a t → P' a t) : EndsH x s P' := fun a t he => hp a t (h a t he)

theorem ends_pure {a : α} {s : LState Q} {P : α → LState Q → Prop} (h : P a s) :
    Ends (pure a) s P := by
  intro b t he
  cases he
  exact h

theorem endsH_pure {a : α} {s : HState Q} {P : α → HState Q → Prop} (h : P a s) :
    EndsH (pure a) s P := by
  intro b t he
  cases he
  exact h

theorem ends_quiet {y : HM Q α} {s : LState Q} {P : α → LState Q → Prop}
    (h : EndsH y s.h fun a h' => P a ⟨h', s.log⟩) : Ends (quiet y) s P := by
  intro a t he
  simp only [quiet] at he
  cases hy : y s.h with
  | error e u => rw [hy] at he; cases he
  | ok b u => rw [hy] at he; cases he; exact h _ _ hy

theorem ends_write {e : LogEntry} {s : LState Q} {P : Unit → LState Q → Prop}
    (h : P () ⟨s.h, s.log ++ [e]⟩) : Ends (write .trace e) s P := by
  intro a t he
  have : Level.trace.writes e.level = true := by simp [Level.writes, Level.toNat]
  simp only [write, modify, modifyGet, MonadStateOf.modifyGet, EStateM.modifyGet, this,
    if_true] at he
  cases he
  exact h

theorem endsH_get {h : HState Q} {P : HState Q → HState Q → Prop} (hp : P h h) : EndsH get h P := by
  intro a t he
  cases he
  exact hp

theorem endsH_set {h h1 : HState Q} {P : PUnit → HState Q → Prop} (hp : P ⟨⟩ h1) :
    EndsH (set h1) h P := by
  intro a t he
  cases he
  exact hp

theorem endsH_modify {h : HState Q} {f : HState Q → HState Q} {P : PUnit → HState Q → Prop}
    (hp : P ⟨⟩ (f h)) : EndsH (modify f) h P := by
  intro a t he
  cases he
  exact hp

theorem endsH_liftE {x : Except Exn α} {h : HState Q} {P : α → HState Q → Prop}
    (hp : ∀ a, x = .ok a → P a h) : EndsH (liftE x) h P := by
  intro a t he
  cases x with
  | error e => cases he
  | ok b => cases he; exact hp _ rfl

theorem endsH_raise {e : Exn} {h : HState Q} {P : α → HState Q → Prop} :
    EndsH (raise e) h P := by
  intro a t he
  cases he

theorem endsH_undef {e : UB} {h : HState Q} {P : α → HState Q → Prop} :
    EndsH (undef e) h P := by
  intro a t he
  cases he

theorem endsH_ite {c : Prop} [Decidable c] {x y : HM Q α} {h : HState Q}
    {P : α → HState Q → Prop} (h1 : c → EndsH x h P) (h2 : ¬ c → EndsH y h P) :
    EndsH (if c then x else y) h P := by
  split
  · exact h1 ‹_›
  · exact h2 ‹_›

/-! ## Parts that only dispatch -/

/-- Nothing is registered or removed. -/
def Stays (y : HM Q α) : Prop := ∀ h, EndsH y h fun _ h' => h'.workers = h.workers

/-- Only entries about dispatch are written, and nothing is registered or removed. -/
def Dispatches (x : LM Q α) : Prop :=
  ∀ s, Ends x s fun _ t => t.h.workers = s.h.workers ∧
    ∃ es, t.log = s.log ++ es ∧ ∀ e ∈ es, Spec.isDispatch e = true

theorem stays_bind {y : HM Q α} {g : α → HM Q β} (h : Stays y) (hg : ∀ a, Stays (g a)) :
    Stays (y >>= g) := fun s => endsH_bind ((h s).mono fun a t ht =>
  (hg a t).mono fun _ _ h2 => h2.trans ht)

theorem stays_pure {a : α} : Stays (pure a : HM Q α) := fun _ => endsH_pure rfl

theorem stays_modify {f : HState Q → HState Q} (h : ∀ s, (f s).workers = s.workers) :
    Stays (modify f : HM Q PUnit) := fun s => endsH_modify (h s)

theorem stays_get_bind {g : HState Q → HM Q β} (hg : ∀ s, EndsH (g s) s fun _ h' => h'.workers = s.workers) :
    Stays (get >>= g) := fun s => endsH_bind (endsH_get (hg s))

theorem stays_liftE {x : Except Exn α} : Stays (liftE x : HM Q α) :=
  fun _ => endsH_liftE fun _ _ => rfl

theorem stays_undef {e : UB} : Stays (undef e : HM Q α) := fun _ => endsH_undef

theorem stays_respond {k i : String} {d : List String} : Stays (respond k i d : HM Q Unit) :=
  stays_modify fun _ => rfl

theorem dispatches_quiet {y : HM Q α} (h : Stays y) : Dispatches (quiet y) := fun s =>
  ends_quiet ((h s.h).mono fun _ _ ht => ⟨ht, [], by simp, by simp⟩)

theorem dispatches_pure {a : α} : Dispatches (pure a : LM Q α) := fun _ =>
  ends_pure ⟨rfl, [], by simp, by simp⟩

theorem dispatches_write {e : LogEntry} (he : Spec.isDispatch e = true) :
    Dispatches (write .trace e : LM Q Unit) := fun _ =>
  ends_write ⟨rfl, [e], rfl, by simpa using he⟩

theorem dispatches_bind {x : LM Q α} {f : α → LM Q β} (h : Dispatches x)
    (hf : ∀ a, Dispatches (f a)) : Dispatches (x >>= f) := fun s =>
  ends_bind ((h s).mono fun a t ⟨h1, es, h2, h3⟩ => (hf a t).mono fun _ u ⟨g1, es', g2, g3⟩ =>
    ⟨g1.trans h1, es ++ es', by rw [g2, h2, List.append_assoc], fun e he =>
      (List.mem_append.1 he).elim (h3 e) (g3 e)⟩)

theorem stays_checkFailureCount {cfg : HConfig} {r : Req} {t : String} :
    Stays (checkFailureCount cfg r t : HM Q Bool) := by
  unfold checkFailureCount
  refine stays_get_bind fun s => ?_
  split
  · exact (stays_bind stays_respond fun _ => stays_bind stays_respond fun _ => stays_pure) s
  · exact stays_pure s

theorem stays_rejectAll {d : String} : ∀ rs : List Req, Stays (rejectAll d rs : HM Q Unit)
  | [] => stays_pure
  | _ :: rs => stays_bind stays_respond fun _ => stays_rejectAll rs

theorem stays_tickWorker {cfg : HConfig} {time : Int} {w : Worker} :
    Stays (tickWorker cfg time w : HM Q Bool) := by
  unfold tickWorker
  refine stays_get_bind fun s => ?_
  dsimp only
  split
  · exact endsH_bind (endsH_set (endsH_pure rfl))
  · exact endsH_bind (endsH_set (endsH_pure rfl))

theorem stays_tickWorkers {cfg : HConfig} {time : Int} : ∀ ws : List Worker,
    Stays (tickWorkers cfg time ws : HM Q _)
  | [] => stays_pure
  | _ :: ws => stays_bind stays_tickWorker fun _ => stays_bind (stays_tickWorkers ws) fun _ =>
      stays_pure

variable [QueueManager Q]

theorem stays_qEnqueue {env : Env} {r : Req} : Stays (qEnqueue env r : HM Q _) := by
  unfold qEnqueue
  refine stays_get_bind fun s => ?_
  exact (stays_bind stays_liftE fun ⟨_, _⟩ => stays_bind (stays_modify fun _ => rfl) fun _ =>
    stays_pure) s

theorem stays_qAddWorker {env : Env} {w : Worker} {o : Option Req} :
    Stays (qAddWorker env w o : HM Q _) := by
  unfold qAddWorker
  refine stays_get_bind fun s => ?_
  exact (stays_bind stays_liftE fun ⟨_, _⟩ => stays_bind (stays_modify fun _ => rfl) fun _ =>
    stays_pure) s

theorem stays_qAssign {env : Env} {w : Worker} : Stays (qAssign env w : HM Q _) := by
  unfold qAssign
  refine stays_get_bind fun s => ?_
  exact (stays_bind stays_liftE fun ⟨_, _⟩ => stays_bind (stays_modify fun _ => rfl) fun _ =>
    stays_pure) s

theorem stays_qFinished {env : Env} {w : Worker} : Stays (qFinished env w : HM Q _) := by
  unfold qFinished
  refine stays_get_bind fun s => ?_
  exact (stays_bind stays_liftE fun ⟨_, _⟩ => stays_bind (stays_modify fun _ => rfl) fun _ =>
    stays_pure) s

theorem stays_qTerminated {w : Worker} : Stays (qTerminated w : HM Q _) := by
  unfold qTerminated
  refine stays_get_bind fun s => ?_
  exact (stays_bind stays_liftE fun ⟨_, _⟩ => stays_bind (stays_modify fun _ => rfl) fun _ =>
    stays_pure) s

theorem stays_qCurrent {w : Worker} : Stays (qCurrent w : HM Q _) := by
  unfold qCurrent
  refine stays_get_bind fun s => ?_
  exact endsH_bind (endsH_modify (endsH_pure rfl))

theorem stays_qCancelled {w : Worker} : Stays (qCancelled w : HM Q _) := by
  unfold qCancelled
  refine stays_get_bind fun s => ?_
  exact endsH_bind (endsH_modify (endsH_pure rfl))

theorem stays_countIdle : ∀ ws : List Worker, Stays (countIdle ws : HM Q _)
  | [] => stays_pure
  | _ :: ws => stays_bind stays_qCurrent fun _ => stays_bind (stays_countIdle ws) fun _ =>
      stays_pure

theorem stays_updateGauges : Stays (updateGauges : HM Q _) := by
  unfold updateGauges
  refine stays_get_bind fun s => ?_
  dsimp only
  exact endsH_bind ((stays_countIdle _ s).mono fun _ _ h => endsH_modify h)

theorem dispatches_sendRequest {w : Worker} {r : Req} :
    Dispatches (sendRequestL .trace w r : LM Q Unit) :=
  dispatches_bind (dispatches_quiet stays_respond) fun _ => dispatches_write rfl

theorem dispatches_sendIfSome {w : Worker} {o : Option Req} :
    Dispatches (sendIfSomeL .trace w o : LM Q Unit) := by
  cases o with
  | none => exact dispatches_pure
  | some r => exact dispatches_sendRequest

theorem dispatches_reassign {env : Env} {r : Req} :
    Dispatches (reassignRequestL .trace env r : LM Q Bool) := by
  unfold reassignRequestL
  refine dispatches_bind (dispatches_quiet fun s => endsH_get rfl) fun s =>
    dispatches_bind (dispatches_write rfl) fun _ => dispatches_bind (dispatches_quiet stays_qEnqueue)
      fun res => ?_
  split
  · split
    · exact dispatches_bind dispatches_sendRequest fun _ => dispatches_pure
    · exact dispatches_bind (dispatches_write rfl) fun _ => dispatches_pure
  · exact dispatches_bind (dispatches_quiet stays_respond) fun _ =>
      dispatches_bind (dispatches_write rfl) fun _ => dispatches_pure

theorem dispatches_doneOk {env : Env} {w : Worker} {j : String} :
    Dispatches (doneOkL .trace env w j : LM Q Unit) :=
  dispatches_bind (dispatches_quiet stays_respond) fun _ =>
    dispatches_bind (dispatches_quiet stays_qFinished) fun _ =>
      dispatches_bind dispatches_sendIfSome fun _ => dispatches_quiet (stays_modify fun _ => rfl)

theorem dispatches_doneFailed {env : Env} {w : Worker} {j t : String} :
    Dispatches (doneFailedL .trace env w j t : LM Q Unit) := by
  unfold doneFailedL
  refine dispatches_bind (dispatches_quiet stays_respond) fun _ =>
    dispatches_bind (dispatches_quiet stays_qCancelled) fun o => ?_
  cases o with
  | none => exact dispatches_quiet stays_undef
  | some r =>
    exact dispatches_bind (dispatches_quiet (stays_modify fun _ => rfl)) fun _ =>
      dispatches_bind (dispatches_quiet stays_qAssign) fun _ =>
        dispatches_bind dispatches_sendIfSome fun _ => dispatches_quiet (stays_modify fun _ => rfl)

theorem dispatches_doneInternal {cfg : HConfig} {env : Env} {w : Worker} {t : String} :
    Dispatches (doneInternalL .trace cfg env w t : LM Q Unit) := by
  unfold doneInternalL
  refine dispatches_bind (dispatches_quiet stays_qCancelled) fun o => ?_
  have hc : Dispatches (quiet countFailed : LM Q Unit) := dispatches_quiet (stays_modify fun _ => rfl)
  cases o with
  | none => exact dispatches_quiet stays_undef
  | some r =>
    refine dispatches_bind (dispatches_quiet (stays_modify fun _ => rfl)) fun _ => ?_
    dsimp only
    split
    · exact dispatches_bind (dispatches_quiet stays_respond) fun _ => hc
    · refine dispatches_bind (dispatches_quiet stays_checkFailureCount) fun b => ?_
      split
      · exact dispatches_bind dispatches_reassign fun _ => hc
      · exact dispatches_bind (dispatches_quiet stays_qAssign) fun _ =>
          dispatches_bind dispatches_sendIfSome fun _ => hc

theorem dispatches_settle {cfg : HConfig} {env : Env} : ∀ rs : List Req,
    Dispatches (settleRequestsL .trace cfg env rs : LM Q _)
  | [] => dispatches_pure
  | r :: rs => by
    unfold settleRequestsL
    split
    · exact dispatches_bind (dispatches_quiet stays_respond) fun _ =>
        dispatches_bind (dispatches_quiet stays_respond) fun _ => dispatches_settle rs
    · refine dispatches_bind (dispatches_quiet stays_checkFailureCount) fun b => ?_
      split
      · refine dispatches_bind dispatches_reassign fun b => ?_
        split
        · exact dispatches_bind (dispatches_quiet stays_respond) fun _ => dispatches_settle rs
        · exact dispatches_bind (dispatches_settle rs) fun _ => dispatches_pure
      · exact dispatches_settle rs

/-! ## Expiry -/

/-- The entries that are not about dispatch. -/
def core (es : List LogEntry) : List LogEntry := es.filter fun e => !Spec.isDispatch e

theorem core_append (a b : List LogEntry) : core (a ++ b) = core a ++ core b := List.filter_append ..

theorem core_dispatch {es : List LogEntry} (h : ∀ e ∈ es, Spec.isDispatch e = true) : core es = [] := by
  unfold core
  rw [List.filter_eq_nil_iff]
  intro e he
  simp [h e he]

/-- What a computation adds to the entries that are not about dispatch. -/
theorem Dispatches.core {x : LM Q α} (h : Dispatches x) (s : LState Q) :
    Ends x s fun _ t => t.h.workers = s.h.workers ∧ core t.log = core s.log :=
  (h s).mono fun _ _ ⟨h1, es, h2, h3⟩ => ⟨h1, by rw [h2, core_append, core_dispatch h3, List.append_nil]⟩

theorem expireWorkerL_core {cfg : HConfig} {env : Env} {w : Worker} (s : LState Q) :
    Ends (expireWorkerL .trace cfg env w) s fun _ t => t.h.workers = regRemove w s.h.workers ∧
      core t.log = core s.log ++ [.expired w.getDescription] := by
  unfold expireWorkerL
  refine ends_bind (ends_write (ends_bind (ends_quiet (endsH_modify ?_))))
  have hd : Dispatches (do
        match ← quiet (qCurrent w) with
        | some r => quiet (bumpCount r)
        | none => pure ()
        let requests ← quiet (qTerminated w)
        let unassigned ← settleRequestsL .trace cfg env requests
        quiet (rejectAll ("Worker " ++ w.getDescription ++ " dieded") unassigned) : LM Q Unit) := by
    refine dispatches_bind (dispatches_quiet stays_qCurrent) fun o => ?_
    have ht : Dispatches (do
        let requests ← quiet (qTerminated w)
        let unassigned ← settleRequestsL .trace cfg env requests
        quiet (rejectAll ("Worker " ++ w.getDescription ++ " dieded") unassigned) : LM Q Unit) :=
      dispatches_bind (dispatches_quiet stays_qTerminated) fun _ =>
        dispatches_bind (dispatches_settle _) fun _ => dispatches_quiet (stays_rejectAll _)
    cases o with
    | none => exact ht
    | some r => exact dispatches_bind (dispatches_quiet (stays_modify fun _ => rfl)) fun _ => ht
  refine (hd.core _).mono fun _ t ⟨h1, h2⟩ => ⟨h1, h2.trans ?_⟩
  rw [core_append]
  rfl

theorem expireWorkersL_core {cfg : HConfig} {env : Env} : ∀ (ws : List Worker) (s : LState Q),
    Ends (expireWorkersL .trace cfg env ws) s fun _ t =>
      t.h.workers = ws.foldl (fun l w => regRemove w l) s.h.workers ∧
      core t.log = core s.log ++ ws.map fun w => .expired w.getDescription
  | [], s => ends_pure ⟨rfl, by simp⟩
  | w :: ws, s => by
    unfold expireWorkersL
    refine ends_bind ((expireWorkerL_core s).mono fun _ t ⟨h1, h2⟩ => ?_)
    refine (expireWorkersL_core ws t).mono fun _ u ⟨g1, g2⟩ => ⟨?_, ?_⟩
    · rw [g1, h1]; rfl
    · rw [g2, h2, List.append_assoc]; rfl

theorem regRemove_filter {w : Worker} : ∀ {l : List Worker}, (l.map (·.addr)).Nodup →
    regRemove w l = l.filter fun x => decide (x.addr ≠ w.addr)
  | [], _ => rfl
  | x :: l, hn => by
    obtain ⟨h1, h2⟩ := List.nodup_cons.1 hn
    unfold regRemove
    split
    · rename_i hx
      rw [List.filter_cons_of_neg (by simp [hx]), List.filter_eq_self.2]
      intro y hy
      have : y.addr ≠ w.addr := fun he => h1 (List.mem_map.2 ⟨y, hy, he.trans hx.symm⟩)
      simpa using this
    · rename_i hx
      rw [List.filter_cons_of_pos (by simpa using hx), regRemove_filter h2]

theorem regRemoves_filter : ∀ {ws l : List Worker}, (l.map (·.addr)).Nodup →
    ws.foldl (fun l w => regRemove w l) l = l.filter fun x => decide (x.addr ∉ ws.map (·.addr))
  | [], l, _ => by simp
  | w :: ws, l, hn => by
    rw [List.foldl_cons, regRemove_filter hn, regRemoves_filter, List.filter_filter]
    · refine List.filter_congr fun x _ => ?_
      simp only [List.map_cons, List.mem_cons, not_or, Bool.decide_and, ne_eq]
      rw [Bool.and_comm]
    · exact (List.filter_sublist.map _).nodup hn

theorem filter_sublist_eq {rs l : List Worker} (hs : rs.Sublist l) (hn : (l.map (·.addr)).Nodup) :
    (l.filter fun x => decide (x.addr ∈ rs.map (·.addr))) = rs := by
  induction hs with
  | slnil => rfl
  | @cons rs l x hs ih =>
    obtain ⟨h1, h2⟩ := List.nodup_cons.1 hn
    rw [List.filter_cons_of_neg, ih h2]
    simp only [decide_eq_true_eq]
    exact fun h => h1 ((hs.map _).subset h)
  | @cons_cons rs l x hs ih =>
    obtain ⟨h1, h2⟩ := List.nodup_cons.1 hn
    rw [List.filter_cons_of_pos (by simp)]
    congr 1
    refine Eq.trans (List.filter_congr fun y hy => ?_) (ih h2)
    have : y.addr ≠ x.addr := fun he => h1 (List.mem_map.2 ⟨y, hy, he⟩)
    simp [this]

theorem gone_of {m : Msg} {s s' : HState Q} {rs : List Worker} (hs : rs.Sublist s.workers)
    (hn : (s.workers.map (·.addr)).Nodup)
    (h : s'.workers = rs.foldl (fun l w => regRemove w l) s.workers) :
    Spec.gone ⟨s, m, s'⟩ = rs := by
  rw [Spec.gone, h, regRemoves_filter hn]
  refine Eq.trans (List.filter_congr fun x hx => ?_) (filter_sublist_eq hs hn)
  simp only [List.mem_filter, not_and, hx, true_implies, decide_eq_true_eq, not_not]

/-! ## The headers of a request -/

theorem filter_orderedInsert (k : String) (a : String × String) : ∀ l : List (String × String),
    (l.orderedInsert (fun a b => a.1 ≤ b.1) a).filter (fun x => x.1 == k) =
      if a.1 = k then a :: l.filter (fun x => x.1 == k) else l.filter (fun x => x.1 == k)
  | [] => by
    simp only [List.orderedInsert_nil, List.filter_cons, List.filter_nil, beq_iff_eq]
  | b :: l => by
    rw [List.orderedInsert_cons]
    split
    · simp only [List.filter_cons (x := a), beq_iff_eq]
    · rename_i hab
      rw [List.filter_cons, filter_orderedInsert k a l, List.filter_cons]
      by_cases ha : a.1 = k
      · have hb : ¬ b.1 = k := fun hb => hab (by rw [ha, hb]; exact String.le_refl _)
        simp [ha, hb]
      · simp only [ha, if_false]

theorem filter_insertionSort (k : String) : ∀ l : List (String × String),
    (l.insertionSort fun a b => a.1 ≤ b.1).filter (fun x => x.1 == k) = l.filter (fun x => x.1 == k)
  | [] => rfl
  | a :: l => by
    rw [List.insertionSort_cons, filter_orderedInsert, filter_insertionSort k l, List.filter_cons]
    simp only [beq_iff_eq]

instance : IsTrans (String × String) fun a b => a.1 ≤ b.1 := ⟨fun _ _ _ h h' => String.le_trans h h'⟩
instance : Std.Total (α := String × String) fun a b => a.1 ≤ b.1 := ⟨fun a b => String.le_total a.1 b.1⟩

theorem asked_eq {fs : List String} {x : Headers × Metadata × List String}
    (h : evalHeaders fs [] [] = .ok (some x)) : x.1 = Spec.asked fs := by
  obtain ⟨h1, _, h3⟩ := evalHeaders_wanted h
  refine mmap_ext h3 ?_ fun k => ?_
  · exact List.pairwise_insertionSort _ _
  · rw [h1 k]
    unfold mmRange Spec.asked Spec.wanted
    rw [filter_insertionSort, List.filter_map, List.map_map, List.filter_filter]
    congr 1
    refine List.filter_congr fun f _ => ?_
    simp [Bool.and_comm]

/-! ## Messages -/

/-- Asking for the current request of a worker again gives the same answer. -/
class Steady (Q : Type) [QueueManager Q] [LawfulQM Q] : Prop where
  again : ∀ (q : Q) (w : Worker), Inv (QueueManager.currentRequest q w).2 →
    (QueueManager.currentRequest (QueueManager.currentRequest q w).2 w).1
      = (QueueManager.currentRequest q w).1

theorem getD_emplace_self {w : Worker} : ∀ {m : WMap (Option Req)}, (m.emplace w none).Sorted →
    (m.emplace w none).getD w none = m.getD w none
  | [], _ => by simp [WMap.emplace, WMap.getD, WMap.find]
  | (x, u) :: t, hs => by
    unfold WMap.emplace at hs ⊢
    split
    · rfl
    · rename_i hx
      rw [if_neg hx] at hs
      split
      · rename_i hlt
        rw [if_pos hlt] at hs
        have hn : ∀ {l : WMap (Option Req)}, (∀ p ∈ l, w.addr < p.1.addr) → l.find w = none := by
          intro l
          induction l with
          | nil => intro _; rfl
          | cons p l ih =>
            intro hl
            have h1 := hl p (List.mem_cons_self ..)
            rw [WMap.find, if_neg (by omega)]
            exact ih fun q hq => hl q (List.mem_cons_of_mem _ hq)
        have := hn (List.pairwise_cons.1 hs).1
        rw [WMap.getD, WMap.find, if_pos rfl, WMap.getD, this]
        rfl
      · rename_i hlt
        rw [if_neg hlt] at hs
        have ih := getD_emplace_self (List.pairwise_cons.1 hs).2
        simp only [WMap.getD, WMap.find, if_neg hx] at ih ⊢
        exact ih

instance : Steady Multi := ⟨fun _ _ h => getD_emplace_self (Multi.Inv.curSorted h)⟩
instance : Steady Single := ⟨fun _ _ h => getD_emplace_self (Single.Inv.curSorted h)⟩
instance (π : Policy) [π.Lawful] : Steady (SingleOf π) :=
  ⟨fun _ _ h => getD_emplace_self (Single.Inv.curSorted h)⟩

variable [LawfulQM Q]

theorem reportFree_core [Steady Q] {w : Worker} (pre : HState Q) (m : Msg) (s : LState Q) :
    Ends (reportFree .trace w) s fun _ t => Inv t.h.queue →
      core t.log = core s.log ++ Spec.freeJournal ⟨pre, m, t.h⟩ w := by
  unfold reportFree
  have hq : EndsH (qCurrent w) s.h fun o h' => o = (QueueManager.currentRequest s.h.queue w).1 ∧
      (Inv h'.queue → (QueueManager.currentRequest h'.queue w).1 =
        (QueueManager.currentRequest s.h.queue w).1) := by
    unfold qCurrent
    exact endsH_bind (endsH_get (endsH_bind (endsH_modify (endsH_pure ⟨rfl, fun hi => Steady.again _ _ hi⟩))))
  refine ends_bind (ends_quiet (hq.mono fun o h' ⟨h1, h2⟩ => ?_))
  rw [← h1] at h2
  cases o with
  | none =>
    refine ends_write fun hi => ?_
    simp only [Spec.freeJournal, h2 hi]
    rw [core_append]
    rfl
  | some r =>
    refine ends_pure fun hi => ?_
    simp [Spec.freeJournal, h2 hi]

theorem doneL_core [Steady Q] {cfg : HConfig} {env : Env} {i c : String} {frames : List String}
    {pre : HState Q} {m : Msg} {s : LState Q} (hw : s.h.workers = pre.workers)
    (hq : s.h.queue = pre.queue) (hi : m.identity = i) :
    Ends (processDoneL .trace cfg env i (c :: frames)) s fun _ t =>
      Inv t.h.queue → core t.log = core s.log ++ .doneReceived :: Spec.doneJournal ⟨pre, m, t.h⟩ frames := by
  have hone : ∀ (e : LogEntry) (u : LState Q), Spec.isDispatch e = false →
      core u.log = core s.log ++ [.doneReceived] →
      core (u.log ++ [e]) = core s.log ++ [.doneReceived, e] := by
    intro e u he hu
    rw [core_append, hu]
    simp [core, he]
  have hfree : ∀ (w : Worker) (u : LState Q), core u.log = core s.log ++ [.doneReceived] →
      Ends (reportFree .trace w) u fun _ t => Inv t.h.queue →
        core t.log = core s.log ++ .doneReceived :: Spec.freeJournal ⟨pre, m, t.h⟩ w := by
    intro w u hu
    refine (reportFree_core pre m u).mono fun _ t ht hv => ?_
    rw [ht hv, hu]
    simp
  unfold processDoneL
  refine ends_bind (ends_write (ends_bind (ends_quiet (endsH_get ?_))))
  have hu : core (s.log ++ [.doneReceived]) = core s.log ++ [.doneReceived] := by
    rw [core_append]; rfl
  unfold regFind Spec.doneJournal
  dsimp only
  rw [hw, hi]
  cases hr : pre.workers.find? fun w => w.identity == i with
  | none => exact ends_write (fun _ => hone _ ⟨s.h, _⟩ rfl hu)
  | some w =>
    dsimp only
    match frames with
    | [] => exact ends_write (fun _ => hone _ ⟨s.h, _⟩ rfl hu)
    | [_] => exact ends_write (fun _ => hone _ ⟨s.h, _⟩ rfl hu)
    | job :: status :: rest =>
      dsimp only
      have hc : EndsH (qCurrent w) s.h fun o _ =>
          o = (QueueManager.currentRequest pre.queue w).1 := by
        unfold qCurrent
        rw [← hq]
        exact endsH_bind (endsH_get (endsH_bind (endsH_modify (endsH_pure rfl))))
      refine ends_bind (ends_quiet (hc.mono fun o h' ho => ?_))
      rw [← ho]
      cases o with
      | none => exact ends_quiet endsH_undef
      | some r =>
        dsimp only
        have hbody : ∀ {x : LM Q Unit}, Dispatches x → Ends (do x; reportFree .trace w)
            ⟨h', s.log ++ [.doneReceived]⟩ fun _ t => Inv t.h.queue →
              core t.log = core s.log ++ .doneReceived :: Spec.freeJournal ⟨pre, m, t.h⟩ w :=
          fun hx => ends_bind ((hx.core _).mono fun _ u hu' => hfree w u (hu'.2.trans hu))
        split
        · exact ends_write (fun _ => hone _ ⟨s.h, _⟩ rfl hu)
        split
        · exact hbody dispatches_doneOk
        split
        · match rest with
          | [] => exact ends_write (fun _ => hone _ ⟨s.h, _⟩ rfl hu)
          | [_] => exact hbody dispatches_doneInternal
          | _ :: _ :: _ => exact ends_write (fun _ => hone _ ⟨s.h, _⟩ rfl hu)
        split
        · match rest with
          | [] => exact ends_write (fun _ => hone _ ⟨s.h, _⟩ rfl hu)
          | [_] => exact hbody dispatches_doneFailed
          | _ :: _ :: _ => exact ends_write (fun _ => hone _ ⟨s.h, _⟩ rfl hu)
        · refine ends_bind (ends_write ((reportFree_core pre m _).mono fun _ t ht hv => ?_))
          rw [ht hv, hone _ ⟨s.h, _⟩ rfl hu]
          simp

theorem framesText_eq : ∀ fr : List String, framesText fr = String.join (fr.map fun f => f ++ " ")
  | [] => rfl
  | f :: t => by
    rw [framesText, framesText_eq t]
    simp [String.join_cons]

theorem registerL_core {env : Env} {i g : String} {hd : Headers} {extra fr : List String}
    {pre : HState Q} {m : Msg} {s : LState Q} (hw : s.h.workers = pre.workers) (hfr : fr ≠ []) :
    Ends (registerWorkerL .trace env i g hd extra fr) s fun _ t =>
      core t.log = core s.log ++ Spec.initJournal ⟨pre, m, t.h⟩ fr := by
  unfold registerWorkerL
  refine ends_bind (ends_quiet (endsH_get ?_))
  dsimp only
  refine ends_bind (ends_quiet (endsH_liftE fun w _ => ?_))
  refine ends_bind (ends_quiet (endsH_set (ends_bind (ends_quiet
    ((stays_qAddWorker _).mono fun o h1 h1w => ?_)))))
  refine ends_bind ((dispatches_sendIfSome.core _).mono fun _ u ⟨u1, u2⟩ => ?_)
  refine ends_bind (ends_quiet (endsH_modify ?_))
  rw [if_pos (by decide)]
  refine ends_write ?_
  dsimp only at u1 u2 h1w ⊢
  rw [core_append, u2]
  congr 1
  have hpost : u.h.workers = pre.workers ++ [w] := by rw [u1, h1w, hw]
  simp only [Spec.initJournal, hfr, if_false, hpost, List.drop_left, List.map_cons, List.map_nil,
    framesText_eq]
  rfl

theorem initL_core {env : Env} {i c : String} {frames : List String} {pre : HState Q} {m : Msg}
    {s : LState Q} (hw : s.h.workers = pre.workers) :
    Ends (processInitL .trace env i (c :: frames)) s fun _ t =>
      core t.log = core s.log ++ .initReceived :: Spec.initJournal ⟨pre, m, t.h⟩ frames := by
  have hu : core (s.log ++ [.initReceived]) = core s.log ++ [.initReceived] := by
    rw [core_append]; rfl
  unfold processInitL
  refine ends_bind (ends_write ?_)
  match frames with
  | [] =>
    refine ends_write ?_
    rw [core_append, hu]
    simp [Spec.initJournal, core, Spec.isDispatch]
  | g :: rest =>
    dsimp only
    refine ends_bind (ends_quiet (endsH_get ?_))
    dsimp only
    have hreg : ∀ h : HState Q, h.workers = s.h.workers → Ends (registerWorkerL .trace env i g
        (initHeaders rest []).1 (initHeaders rest []).2 (g :: rest)) ⟨h, s.log ++ [.initReceived]⟩
        fun _ t => core t.log =
          core s.log ++ .initReceived :: Spec.initJournal ⟨pre, m, t.h⟩ (g :: rest) := by
      intro h hh
      refine (registerL_core (pre := pre) (m := m) (hh.trans hw) (by simp)).mono fun _ t ht => ?_
      rw [ht, hu]
      simp
    split
    · split
      · refine ends_pure ?_
        rw [hu]
        simp [Spec.initJournal, hw]
      · exact ends_bind (ends_quiet (endsH_modify (hreg _ rfl)))
    · exact hreg _ rfl

theorem writeHeaders_ends : ∀ (hd : Headers) (s : LState Q), Ends (writeHeaders .trace hd) s
    fun _ t => t.h = s.h ∧ t.log = s.log ++ hd.map fun x => .rejectedHeader x.1 x.2
  | [], s => ends_pure (by simp)
  | x :: hd, s => by
    unfold writeHeaders
    refine ends_bind (ends_write ((writeHeaders_ends hd _).mono fun _ t ⟨h1, h2⟩ => ⟨h1, ?_⟩))
    rw [h2]
    simp

theorem submitL_core {env : Env} {i j : String} {hd : Headers} {md : Metadata} {ad : List String}
    {s : LState Q} (ho : s.h.outs = [⟨keyClients, i, ["ack"]⟩]) :
    Ends (submitL .trace env i j hd md ad) s fun _ t =>
      core t.log = core s.log ++ .incoming j ::
        if t.h.outs.any Spec.isReject then
          .rejectedHeaders j :: hd.map fun x => .rejectedHeader x.1 x.2
        else if t.h.outs.any fun m => m.key == "workers" then [] else [.saved] := by
  unfold submitL
  refine ends_bind (ends_write (ends_bind (ends_quiet (endsH_get (ends_bind (ends_quiet
    (endsH_set ?_)))))))
  have hq : ∀ (r : Req) (h : HState Q), EndsH (qEnqueue env r) h fun _ h' => h'.outs = h.outs := by
    intro r h
    unfold qEnqueue
    exact endsH_bind (endsH_get (endsH_bind (endsH_liftE fun ⟨_, _⟩ _ =>
      endsH_bind (endsH_modify (endsH_pure rfl)))))
  refine ends_bind (ends_quiet ((hq _ _).mono fun res h1 h1o => ?_))
  dsimp only at h1o ⊢
  rw [ho] at h1o
  have hu : core (s.log ++ [.incoming j]) = core s.log ++ [.incoming j] := by
    rw [core_append]; rfl
  split
  · split
    · rename_i w _
      refine ends_bind (ends_bind (ends_quiet (endsH_modify (ends_write ?_))))
      refine ends_quiet (endsH_modify ?_)
      rw [core_append, hu]
      simp [h1o, core, Spec.isDispatch, Spec.isReject, keyClients, keyWorkers]
    · refine ends_bind (ends_write (ends_quiet (endsH_modify ?_)))
      rw [core_append, hu]
      simp [h1o, core, Spec.isDispatch, Spec.isReject, keyClients]
  · refine ends_bind (ends_write (ends_bind ((writeHeaders_ends hd _).mono fun _ u ⟨u1, u2⟩ => ?_)))
    refine ends_bind (ends_quiet (endsH_modify (ends_quiet (endsH_modify ?_))))
    dsimp only at u1 u2 ⊢
    have hh : core (hd.map fun x => LogEntry.rejectedHeader x.1 x.2) =
        hd.map fun x => LogEntry.rejectedHeader x.1 x.2 := by
      unfold core
      rw [List.filter_eq_self]
      intro e he
      obtain ⟨x, _, rfl⟩ := List.mem_map.1 he
      rfl
    rw [u2, core_append, core_append, hu, hh, u1]
    simp [h1o, core, Spec.isDispatch, Spec.isReject, keyClients, keyMonitor]

theorem evalL_core {env : Env} {i c : String} {frames : List String} {pre : HState Q} {m : Msg}
    {s : LState Q} (ho : s.h.outs = []) (hf : s.h.frozen = pre.frozen) :
    Ends (processEvalL .trace env i (c :: frames)) s fun _ t =>
      core t.log = core s.log ++ .evalReceived :: Spec.evalJournal ⟨pre, m, t.h⟩ frames := by
  have hu : core (s.log ++ [.evalReceived]) = core s.log ++ [.evalReceived] := by
    rw [core_append]; rfl
  unfold processEvalL
  refine ends_bind (ends_write (ends_bind (ends_quiet (endsH_modify ?_))))
  cases frames with
  | nil => exact ends_quiet endsH_raise
  | cons job fs =>
    have hdrop : (c :: job :: fs).drop 2 = fs := rfl
    dsimp only [List.getElem?_cons_succ, List.getElem?_cons_zero]
    rw [hdrop]
    cases he : evalHeaders fs [] [] with
    | error u => exact ends_quiet endsH_undef
    | ok o =>
      cases o with
      | none =>
        have h := ((evalHeaders_none fs [] []).1 he).2
        refine ends_write ?_
        rw [core_append, hu]
        simp [Spec.evalJournal, h, core, Spec.isDispatch]
      | some x =>
        obtain ⟨hd, md, ad⟩ := x
        have h := (evalHeaders_some _ _ _ _ he).1
        have hd' : hd = Spec.asked fs := asked_eq he
        dsimp only
        refine ends_bind (ends_quiet (endsH_get ?_))
        dsimp only
        rw [hf]
        split
        · rename_i hfr
          refine ends_bind (ends_quiet (endsH_modify (ends_write ?_)))
          rw [core_append, hu]
          simp [Spec.evalJournal, h, hfr, core, Spec.isDispatch]
        · rename_i hfr
          refine (submitL_core (by simp [ho])).mono fun _ t ht => ?_
          rw [ht, hu, hd']
          simp [Spec.evalJournal, h, hfr, Tr.outs]

theorem timerL_core [Carries Q] [Refers Q] {cfg : HConfig} {env : Env} {f : String} {rest : List String} {pre : HState Q}
    {m : Msg} {s : LState Q} (hw : s.h.workers = pre.workers)
    (hn : (pre.workers.map (·.addr)).Nodup) :
    Ends (processTimerL .trace cfg env (f :: rest)) s fun _ t =>
      core t.log = core s.log ++ (Spec.gone ⟨pre, m, t.h⟩).map fun w => .expired w.getDescription := by
  unfold processTimerL
  refine ends_bind (ends_quiet (endsH_liftE fun time _ => ?_))
  refine ends_bind (ends_quiet (endsH_get ?_))
  refine ends_bind (ends_quiet ?_)
  intro rs h1 he
  have hsub := tickWorkers_ok he
  have h1w := stays_tickWorkers _ _ _ _ he
  refine ends_bind ((expireWorkersL_core rs _).mono fun _ u ⟨u1, u2⟩ => ?_)
  refine ends_quiet ((stays_updateGauges _).mono fun _ h2 h2w => ?_)
  dsimp only at u1 u2 h1w hsub ⊢
  rw [gone_of (rs := rs) (by rw [← hw]; exact hsub) hn (by rw [h2w, u1, h1w, hw]), u2]

/-- **The entries of a message.** -/
theorem stepLog_core [Steady Q] [Carries Q] [Refers Q] {cfg : HConfig} {env : Env} {m : Msg} {s s' : HState Q}
    {es : List LogEntry} (hv : Inv s'.queue) (hn : (s.workers.map (·.addr)).Nodup)
    (h : stepLog .trace cfg env m s = .ok () ⟨s', es⟩) : core es = Spec.journal ⟨s, m, s'⟩ := by
  suffices hs : Ends (onRequestL .trace cfg env m) ⟨{ s with outs := [] }, []⟩ fun _ t => Inv t.h.queue →
      core t.log = Spec.journal ⟨s, m, t.h⟩ from hs _ _ h hv
  clear h hv
  have none : ∀ {x : LM Q Unit} {u : LState Q}, u.log = [] → Dispatches x →
      Ends x u fun _ t => Inv t.h.queue → core t.log = [] := by
    intro x u hu hx
    refine (hx.core u).mono fun _ t ht _ => ?_
    rw [ht.2, hu]
    rfl
  obtain ⟨k, i, d⟩ := m
  unfold onRequestL Spec.journal
  dsimp only
  by_cases hk : k = keyWorkers
  · subst hk
    simp only [↓reduceIte, show ¬ (keyWorkers = "clients") by decide,
      show (keyWorkers = "workers") = True from eq_true rfl]
    have ht : EndsH (touchWorker cfg i) { s with outs := [] } fun _ h' =>
        h'.workers = s.workers ∧ h'.queue = s.queue := by
      unfold touchWorker
      refine endsH_bind (endsH_get ?_)
      split
      · exact endsH_pure ⟨rfl, rfl⟩
      · exact endsH_set ⟨rfl, rfl⟩
    refine ends_bind (ends_quiet (ht.mono fun _ h0 ⟨hw, hq⟩ => ?_))
    cases d with
    | nil => exact ends_quiet endsH_raise
    | cons c frames =>
      dsimp only
      unfold workerCommandL
      by_cases h1 : c = "init"
      · simp only [h1, ↓reduceIte]
        exact (initL_core (pre := s) hw).mono fun _ _ ht _ => ht
      by_cases h2 : c = "done"
      · simp only [h2, ↓reduceIte, show ¬ ("done" = "init") by decide]
        exact (doneL_core (pre := s) (m := ⟨keyWorkers, i, "done" :: frames⟩)
          (s := ⟨h0, []⟩) hw hq rfl).mono fun _ _ ht => ht
      simp only [h1, h2, ↓reduceIte]
      split
      · exact none rfl (dispatches_quiet (by
          unfold processPing
          refine stays_get_bind fun s => ?_
          split
          · exact stays_respond s
          · exact stays_respond s))
      split
      · exact none rfl (dispatches_quiet stays_respond)
      · exact none rfl dispatches_pure
  by_cases hk2 : k = keyClients
  · subst hk2
    simp only [↓reduceIte, show ¬ (keyClients = keyWorkers) by decide,
      show (keyClients = "clients") = True from eq_true rfl]
    cases d with
    | nil => exact ends_quiet endsH_raise
    | cons c frames =>
      dsimp only
      unfold clientCommandL
      by_cases h1 : c = "eval"
      · simp only [h1, ↓reduceIte]
        exact (evalL_core (pre := s) rfl rfl).mono fun _ _ ht _ => ht
      by_cases h2 : c = "get-runtime-stats"
      · simp only [h2, ↓reduceIte, show ¬ ("get-runtime-stats" = "eval") by decide]
        exact ends_bind (ends_write (ends_quiet (endsH_bind (endsH_get (endsH_modify fun _ => rfl)))))
      by_cases h3 : c = "freeze"
      · simp only [h3, ↓reduceIte, show ¬ ("freeze" = "eval") by decide,
          show ¬ ("freeze" = "get-runtime-stats") by decide]
        exact ends_bind (ends_quiet (endsH_modify (ends_bind (ends_write
          (ends_quiet (endsH_modify fun _ => rfl))))))
      by_cases h4 : c = "unfreeze"
      · simp only [h4, ↓reduceIte, show ¬ ("unfreeze" = "eval") by decide,
          show ¬ ("unfreeze" = "get-runtime-stats") by decide,
          show ¬ ("unfreeze" = "freeze") by decide]
        exact ends_bind (ends_quiet (endsH_modify (ends_bind (ends_write
          (ends_quiet (endsH_modify fun _ => rfl))))))
      simp only [h1, h2, h3, h4, ↓reduceIte]
      exact none rfl dispatches_pure
  by_cases hk3 : k = keyTimer
  · subst hk3
    simp only [↓reduceIte, show ¬ (keyTimer = keyWorkers) by decide,
      show ¬ (keyTimer = keyClients) by decide, show ¬ (keyTimer = "clients") by decide,
      show ¬ (keyTimer = "workers") by decide, show (keyTimer = "timer") = True from eq_true rfl]
    cases d with
    | nil => exact ends_quiet endsH_undef
    | cons f rest => exact (timerL_core (pre := s) rfl hn).mono fun _ _ ht _ => ht
  · simp only [hk, hk2, hk3, ↓reduceIte]
    refine (none rfl dispatches_pure).mono fun _ t ht hv => ?_
    rw [ht hv]
    cases d with
    | nil => rfl
    | cons c frames =>
      dsimp only
      rw [if_neg (show ¬ k = "clients" from hk2), if_neg (show ¬ k = "workers" from hk),
        if_neg (show ¬ k = "timer" from hk3)]

end Broker
