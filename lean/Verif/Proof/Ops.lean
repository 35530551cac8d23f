import Verif.Proof.Total

/-!
# Queue operations of a step

Every step drives the queue manager through a sequence of operations; the evaluation messages it
emits are exactly those the results of the operations call for.
-/

set_option linter.unusedSectionVars false
set_option linter.unusedSimpArgs false

namespace Broker

open QueueManager LawfulQM

/-- An operation on the queue manager with its result. -/
inductive QOp
  | add (w : Worker) (cur o : Option Req)
  | assign (w : Worker) (o : Option Req)
  | finish (w : Worker) (o : Option Req)
  | cancel (w : Worker) (r : Req)
  | term (w : Worker) (rs : List Req)
  | enq (now : Int) (r : Req) (res : EnqResult)

/-- The request an operation gives to a worker. -/
def QOp.gives : QOp → Option (Worker × Req)
  | .add w _ o => o.map (fun r => (w, r))
  | .assign w o => o.map (fun r => (w, r))
  | .finish w o => o.map (fun r => (w, r))
  | .cancel _ _ => none
  | .term _ _ => none
  | .enq _ r res => res.assignedTo.map (fun w => (w, r))

/-- Messages that give requests to workers. -/
def QOp.sends (op : QOp) : List Msg := (op.gives.map (fun p => sendMsg p.1 p.2)).toList

variable {Q : Type} [QueueManager Q] [LawfulQM Q]

/-- One operation. -/
inductive QStep (srt : Sorter) : Q → QOp → Q → Prop
  | add {q q' : Q} {w : Worker} {cur o : Option Req} (hw : w.WF)
      (hf : w.addr ∉ (reg q).map (·.addr)) (h : addWorker srt q w cur = .ok (o, q')) :
    QStep srt q (.add w cur o) q'
  | assign {q q' : Q} {w : Worker} {o : Option Req} (hw : w ∈ reg q) (hi : ∀ r, (w, r) ∉ busy q)
      (h : assignRequest srt q w = .ok (o, q')) : QStep srt q (.assign w o) q'
  | finish {q q' : Q} {w : Worker} {r : Req} {o : Option Req} (hb : (w, r) ∈ busy q)
      (h : workerFinished srt q w = .ok (o, q')) : QStep srt q (.finish w o) q'
  | cancel {q q' : Q} {w : Worker} {r : Req} (hb : (w, r) ∈ busy q)
      (h : workerCancelled q w = (some r, q')) : QStep srt q (.cancel w r) q'
  | term {q q' : Q} {w : Worker} {rs : List Req} (hw : w ∈ reg q)
      (h : workerTerminated q w = .ok (rs, q')) : QStep srt q (.term w rs) q'
  | enq {q q' : Q} {now : Int} {r : Req} {res : EnqResult}
      (h : enqueueRequest q now r = .ok (res, q')) : QStep srt q (.enq now r res) q'

/-- A sequence of operations. -/
inductive QPath (srt : Sorter) : Q → List QOp → Q → Prop
  | nil (q : Q) : QPath srt q [] q
  | cons {q q1 q2 : Q} {op : QOp} {ops : List QOp} (h : QStep srt q op q1)
      (ht : QPath srt q1 ops q2) : QPath srt q (op :: ops) q2

theorem QPath.single {srt : Sorter} {q q' : Q} {op : QOp} (h : QStep srt q op q') :
    QPath srt q [op] q' := .cons h (.nil _)

theorem QPath.append {srt : Sorter} {q q1 q2 : Q} {a b : List QOp} (h1 : QPath srt q a q1)
    (h2 : QPath srt q1 b q2) : QPath srt q (a ++ b) q2 := by
  induction h1 with
  | nil => exact h2
  | cons h _ ih => exact .cons h (ih h2)

theorem QStep.inv {srt : Sorter} {q q' : Q} {op : QOp} (h : QStep srt q op q') (hi : Inv q) :
    Inv q' := by
  cases h with
  | @add _ w cur o hw hf h =>
    obtain ⟨o', q2, h1, h2, _⟩ := LawfulQM.add srt cur hi hw hf
    rw [h] at h1; cases h1; exact h2
  | assign hw hidle h =>
    obtain ⟨o', q2, h1, h2, _⟩ := LawfulQM.assign srt hi hw hidle
    rw [h] at h1; cases h1; exact h2
  | finish hb h =>
    obtain ⟨b, hbb⟩ := Multiset.exists_cons_of_mem hb
    obtain ⟨o', q2, h1, h2, _⟩ := LawfulQM.finished srt hi hbb
    rw [h] at h1; cases h1; exact h2
  | cancel hb h =>
    obtain ⟨q2, h1, h2, _⟩ := LawfulQM.cancelled hi hb
    rw [h] at h1; cases h1; exact h2
  | term hw h =>
    obtain ⟨c, qs, q2, h1, h2, _⟩ := LawfulQM.terminated hi hw
    rw [h] at h1; cases h1; exact h2
  | enq h => exact (LawfulQM.enqueue _ hi h).1

theorem QPath.inv {srt : Sorter} {q q' : Q} {ops : List QOp} (h : QPath srt q ops q')
    (hi : Inv q) : Inv q' := by
  induction h with
  | nil => exact hi
  | cons h _ ih => exact ih (h.inv hi)

/-- A message for a worker that is neither `pong` nor `intro`. -/
def isGive (m : Msg) : Bool := m.key == "workers" && m.data != ["pong"] && m.data != ["intro"]

/-- The messages that give requests to workers among some messages. -/
def evals (os : List Msg) : List Msg := os.filter isGive

theorem isGive_of_eval {m : Msg} (h : Spec.isEval m = true) : isGive m = true := by
  simp only [Spec.isEval, Bool.and_eq_true] at h
  have h1 : m.data ≠ ["pong"] := fun e => by rw [e] at h; simp at h
  have h2 : m.data ≠ ["intro"] := fun e => by rw [e] at h; simp at h
  simp [isGive, h.1, h1, h2]

theorem evals_isEval (os : List Msg) : (evals os).filter Spec.isEval = os.filter Spec.isEval := by
  rw [evals, List.filter_filter]
  congr 1
  funext m
  cases h : Spec.isEval m with
  | false => rfl
  | true => simp [isGive_of_eval h]

theorem evals_append (a b : List Msg) : evals (a ++ b) = evals a ++ evals b := List.filter_append ..

/-- What a computation did to the queue and which evaluation messages it emitted. -/
structure Drv (env : Env) (s : HState Q) (ops : List QOp) (s' : HState Q) : Prop where
  path : QPath env.srt s.queue ops s'.queue
  sends : evals s'.outs = evals s.outs ++ evals (ops.flatMap QOp.sends)
  mono_clock : s.clockReads ≤ s'.clockReads
  clock : ∀ now r res, QOp.enq now r res ∈ ops →
    ∃ k, s.clockReads ≤ k ∧ k < s'.clockReads ∧ now = env.clock k

theorem Drv.refl' {env : Env} {s s' : HState Q} (hq : s'.queue = s.queue)
    (ho : evals s'.outs = evals s.outs) (hc : s'.clockReads = s.clockReads := by rfl) :
    Drv env s [] s' :=
  ⟨by rw [hq]; exact .nil _, by rw [ho]; simp [evals], by omega, by simp⟩

/-- A single operation that is not an enqueueing. -/
theorem Drv.one {env : Env} {s s' : HState Q} {op : QOp} (hp : QPath env.srt s.queue [op] s'.queue)
    (ho : evals s'.outs = evals s.outs ++ evals ([op].flatMap QOp.sends))
    (hn : ∀ now r res, op ≠ .enq now r res) (hc : s'.clockReads = s.clockReads := by rfl) :
    Drv env s [op] s' :=
  ⟨hp, ho, by omega, fun now r res h => absurd (List.mem_singleton.1 h).symm (hn now r res)⟩

/-- A single enqueueing. -/
theorem Drv.enq {env : Env} {s s' : HState Q} {r : Req} {res : EnqResult}
    (hp : QPath env.srt s.queue [.enq (env.clock s.clockReads) r res] s'.queue)
    (ho : evals s'.outs = evals s.outs ++
      evals ([QOp.enq (env.clock s.clockReads) r res].flatMap QOp.sends))
    (hc : s'.clockReads = s.clockReads + 1 := by rfl) :
    Drv env s [.enq (env.clock s.clockReads) r res] s' := by
  refine ⟨hp, ho, by omega, fun now r res h => ?_⟩
  rw [List.mem_singleton] at h
  cases h
  exact ⟨s.clockReads, Nat.le_refl _, by omega, rfl⟩

theorem Drv.trans {env : Env} {s s1 s2 : HState Q} {a b : List QOp} (h1 : Drv env s a s1)
    (h2 : Drv env s1 b s2) : Drv env s (a ++ b) s2 :=
  ⟨h1.path.append h2.path, by
    rw [h2.sends, h1.sends, List.flatMap_append, evals_append, List.append_assoc],
    Nat.le_trans h1.mono_clock h2.mono_clock, by
    intro now r res h
    have k1 := h1.mono_clock
    have k2 := h2.mono_clock
    rcases List.mem_append.1 h with h | h
    · obtain ⟨k, g1, g2, g3⟩ := h1.clock now r res h
      exact ⟨k, g1, by omega, g3⟩
    · obtain ⟨k, g1, g2, g3⟩ := h2.clock now r res h
      exact ⟨k, by omega, g2, g3⟩⟩

theorem Drv.mono {env : Env} {s s1 s2 : HState Q} {a : List QOp} (h1 : Drv env s a s1)
    (hq : s2.queue = s1.queue) (ho : evals s2.outs = evals s1.outs)
    (hc : s2.clockReads = s1.clockReads := by rfl) : Drv env s a s2 := by
  have := h1.trans (Drv.refl' (env := env) hq ho hc)
  simpa using this

theorem Drv.from {env : Env} {s s1 s2 : HState Q} {a : List QOp} (h1 : Drv env s1 a s2)
    (hq : s1.queue = s.queue) (ho : evals s1.outs = evals s.outs)
    (hc : s1.clockReads = s.clockReads := by rfl) : Drv env s a s2 := by
  have := (Drv.refl' (env := env) hq ho hc).trans h1
  simpa using this

/-- No condition on abnormal outcomes. -/
abbrev AnyErr : Err → HState Q → Prop := fun _ _ => True

theorem wp_and {α : Type} {m : HM Q α} {s : HState Q} {R R' : α → HState Q → Prop} {E E'}
    (h : wp m s R E) (h' : wp m s R' E') : wp m s (fun a s' => R a s' ∧ R' a s') AnyErr := by
  unfold wp at *
  revert h h'
  cases m s with
  | ok a s' => exact fun h h' => ⟨h, h'⟩
  | error e s' => exact fun _ _ => trivial

theorem evals_snoc {l : List Msg} {m : Msg} (h : isGive m = false) :
    evals (l ++ [m]) = evals l := by
  rw [evals_append]; simp [evals, h]

theorem isEval_mon (d : List String) : isGive ⟨keyMonitor, monitorIdentity, d⟩ = false := by
  simp [isGive, keyMonitor]

theorem isEval_not (i : String) (d : List String) : isGive ⟨keyNotifier, i, d⟩ = false := by
  simp [isGive, keyNotifier]

theorem isEval_cli (i : String) (d : List String) : isGive ⟨keyClients, i, d⟩ = false := by
  simp [isGive, keyClients]

/-! ## Giving requests -/

theorem drv_assign {env : Env} {s : HState Q} {w : Worker} (hq : Inv s.queue)
    (hw : w ∈ reg s.queue) (hidle : ∀ r, (w, r) ∉ busy s.queue) :
    wp (qAssign env w >>= sendIfSome w) s
      (fun _ s' => ∃ o, Drv env s [.assign w o] s') AnyErr := by
  obtain ⟨o, q', h1, h2, h3, h4⟩ := LawfulQM.assign env.srt hq hw hidle
  simp only [qAssign, wp_bind, wp_get, wp_liftE, h1, wp_modify, wp_pure]
  have hp : QPath env.srt s.queue [.assign w o] q' := .single (.assign hw hidle h1)
  cases o with
  | none =>
    simp only [sendIfSome, wp_pure]
    exact ⟨none, .one hp (by simp [QOp.sends, QOp.gives, evals]) (by simp)⟩
  | some r =>
    simp only [sendIfSome, sendRequest, wp_respond]
    exact ⟨some r, .one hp (by simp [QOp.sends, QOp.gives, evals_append, sendMsg]) (by simp)⟩

theorem drv_finish {env : Env} {s : HState Q} {w : Worker} {r : Req} (hq : Inv s.queue)
    (hb : (w, r) ∈ busy s.queue) :
    wp (qFinished env w >>= sendIfSome w) s
      (fun _ s' => ∃ o, Drv env s [.finish w o] s') AnyErr := by
  obtain ⟨b, hbb⟩ := Multiset.exists_cons_of_mem hb
  obtain ⟨o, q', h1, h2, h3, h4⟩ := LawfulQM.finished env.srt hq hbb
  simp only [qFinished, wp_bind, wp_get, wp_liftE, h1, wp_modify, wp_pure]
  have hp : QPath env.srt s.queue [.finish w o] q' := .single (.finish hb h1)
  cases o with
  | none =>
    simp only [sendIfSome, wp_pure]
    exact ⟨none, .one hp (by simp [QOp.sends, QOp.gives, evals]) (by simp)⟩
  | some r =>
    simp only [sendIfSome, sendRequest, wp_respond]
    exact ⟨some r, .one hp (by simp [QOp.sends, QOp.gives, evals_append, sendMsg]) (by simp)⟩

theorem drv_reassign {env : Env} {s : HState Q} {r : Req} (hq : Inv s.queue) :
    wp (reassignRequest env r) s
      (fun _ s' => ∃ now res, Drv env s [.enq now r res] s') AnyErr := by
  simp only [reassignRequest, qEnqueue, wp_bind, wp_get, wp_liftE, wp_modify, wp_pure]
  cases heq : enqueueRequest s.queue (env.clock s.clockReads) r with
  | error e => trivial
  | ok p =>
    obtain ⟨res, q'⟩ := p
    have hp : QPath env.srt s.queue [.enq (env.clock s.clockReads) r res] q' := .single (.enq heq)
    obtain ⟨_, _, h4⟩ := LawfulQM.enqueue _ hq heq
    rcases h4 with ⟨w, rfl, _⟩ | ⟨rfl, _⟩ | ⟨rfl, _⟩
    · simp only [if_true, wp_bind, sendRequest, wp_respond, wp_pure]
      exact ⟨_, _, .enq hp (by simp [QOp.sends, QOp.gives, evals_append, sendMsg])⟩
    · simp only [if_true, wp_pure]
      exact ⟨_, _, .enq hp (by simp [QOp.sends, QOp.gives, evals])⟩
    · simp only [Bool.false_eq_true, if_false, wp_bind, notifyMonitor, wp_respond, wp_pure]
      refine ⟨_, _, .enq hp ?_⟩
      show evals (s.outs ++ [_]) = _
      rw [evals_snoc (isEval_mon _)]
      simp [QOp.sends, QOp.gives, evals]

theorem drv_checkFailureCount {cfg : HConfig} {env : Env} {s : HState Q} {r : Req} {text : String} :
    wp (checkFailureCount cfg r text) s (fun _ s' => Drv env s [] s' ∧ s'.queue = s.queue)
      AnyErr := by
  simp only [checkFailureCount, wp_bind, wp_get]
  split
  · simp only [wp_bind, notifyFailed, notifyMonitor, wp_respond, wp_pure]
    refine ⟨Drv.refl' rfl ?_, trivial⟩
    show evals (s.outs ++ [_] ++ [_]) = _
    rw [evals_snoc (isEval_mon _), evals_snoc (isEval_not _ _)]
  · exact ⟨Drv.refl' rfl rfl, rfl⟩

/-! ## Shapes -/

/-- The operations a message causes; `sender` is the registered worker the message comes from. -/
inductive OpShape (sender : Option Worker) (m : Msg) : List QOp → Prop
  | none : OpShape sender m []
  | init {w : Worker} {cur o : Option Req} (hk : m.key = keyWorkers)
      (hd : m.data.head? = some "init") (hi : w.identity = m.identity)
      (hcur : ∀ r, cur = some r → ∃ n j, r = Req.incomplete n j) :
    OpShape sender m [.add w cur o]
  | ok {w : Worker} {o : Option Req} {j : String} {rest : List String} (hk : m.key = keyWorkers)
      (hd : m.data = "done" :: j :: "OK" :: rest) (hi : sender = some w) :
    OpShape sender m [.finish w o]
  | failed {w : Worker} {r : Req} {o : Option Req} {st text : String} (hk : m.key = keyWorkers)
      (hd : m.data = ["done", r.jobId, st, text])
      (hst : st = "FAILED" ∨ st = "INTERNAL_ERROR") (hi : sender = some w) :
    OpShape sender m [.cancel w r, .assign w o]
  | adopted {w : Worker} {r : Req} {text : String} (hk : m.key = keyWorkers)
      (hd : m.data = ["done", r.jobId, "INTERNAL_ERROR", text]) (hi : sender = some w)
      (hc : r.complete = false) : OpShape sender m [.cancel w r]
  | again {w : Worker} {r : Req} {text : String} {now : Int} {res : EnqResult}
      (hk : m.key = keyWorkers) (hd : m.data = ["done", r.jobId, "INTERNAL_ERROR", text])
      (hi : sender = some w) (hc : r.complete = true) :
    OpShape sender m [.cancel w r, .enq now r res]
  | eval {r : Req} {now : Int} {res : EnqResult} {fs extra : List String} (hk : m.key = keyClients)
      (hd : m.data = "eval" :: r.jobId :: fs)
      (hp : evalHeaders fs [] [] = .ok (some (r.headers, r.metadata, extra)))
      (hf : r.frames = "eval" :: r.jobId :: extra) (hc : r.complete = true) :
    OpShape sender m [.enq now r res]
  | timer {ops : List QOp} (hk : m.key = keyTimer) (h : ∀ op ∈ ops, (∃ w rs, op = .term w rs) ∨
      ∃ now r res, op = .enq now r res ∧ r.complete = true) : OpShape sender m ops

/-! ## Commands -/

theorem drv_submit {env : Env} {s : HState Q} {identity jobId : String} {hs : Headers}
    {md : Metadata} {extra : List String} (hq : Inv s.queue) :
    wp (submit env identity jobId hs md extra) s
      (fun _ s' => ∃ now r res, (∃ n, r = Req.full n hs md jobId extra) ∧
        Drv env s [.enq now r res] s') AnyErr := by
  simp only [submit, qEnqueue, wp_bind, wp_get, wp_set, wp_liftE, wp_modify, wp_pure]
  generalize hr : Req.full s.nextRid hs md jobId extra = r
  have hcomp : ∃ n, r = Req.full n hs md jobId extra := ⟨_, hr.symm⟩
  cases heq : enqueueRequest s.queue (env.clock s.clockReads) r with
  | error e => trivial
  | ok p =>
    obtain ⟨res, q'⟩ := p
    have hp : QPath env.srt s.queue [.enq (env.clock s.clockReads) r res] q' := .single (.enq heq)
    obtain ⟨_, _, h4⟩ := LawfulQM.enqueue _ hq heq
    rcases h4 with ⟨w, rfl, _⟩ | ⟨rfl, _⟩ | ⟨rfl, _⟩
    · simp only [if_true, wp_bind, sendRequest, wp_respond]
      refine ⟨_, r, _, hcomp, .enq hp ?_⟩
      show evals (s.outs ++ [_] ++ [_]) = _
      rw [evals_snoc (isEval_cli _ _)]
      simp [QOp.sends, QOp.gives, evals_append, sendMsg]
    · simp only [if_true, wp_bind, wp_respond, wp_pure]
      refine ⟨_, r, _, hcomp, .enq hp ?_⟩
      show evals (s.outs ++ [_]) = _
      rw [evals_snoc (isEval_cli _ _)]
      simp [QOp.sends, QOp.gives, evals]
    · simp only [Bool.false_eq_true, if_false, wp_bind, notifyMonitor, wp_respond]
      refine ⟨_, r, _, hcomp, .enq hp ?_⟩
      show evals (s.outs ++ [_] ++ [_]) = _
      rw [evals_snoc (isEval_mon _), evals_snoc (isEval_cli _ _)]
      simp [QOp.sends, QOp.gives, evals]

theorem drv_eval {env : Env} {s : HState Q} {m : Msg} {args : List String} (hq : Inv s.queue)
    (hk : m.key = keyClients) (hd : m.data = "eval" :: args) :
    wp (processEval env m.identity m.data) s
      (fun _ s' => ∃ ops, Drv env s ops s' ∧ OpShape (regFind m.identity s.workers) m ops) AnyErr := by
  rw [hd]
  simp only [processEval, wp_bind, wp_respond]
  cases args with
  | nil => trivial
  | cons j fs =>
    simp only [List.getElem?_cons_succ, List.getElem?_cons_zero, List.drop_succ_cons,
      List.drop_zero]
    cases hp : evalHeaders fs [] [] with
    | error u => trivial
    | ok o =>
      cases o with
      | none => exact ⟨[], Drv.refl' rfl (evals_snoc (isEval_cli _ _)), .none⟩
      | some x =>
        obtain ⟨hs, md, extra⟩ := x
        simp only [wp_bind, wp_get]
        split
        · simp only [wp_respond]
          refine ⟨[], Drv.refl' rfl ?_, .none⟩
          show evals (s.outs ++ [_] ++ [_]) = _
          rw [evals_snoc (isEval_cli _ _), evals_snoc (isEval_cli _ _)]
        · refine wp_mono (drv_submit hq) ?_ (fun _ _ h => h)
          rintro _ s' ⟨now, r, res, ⟨n, rfl⟩, h⟩
          exact ⟨_, h.from rfl (evals_snoc (isEval_cli _ _)), .eval hk hd hp rfl rfl⟩

theorem drv_register {env : Env} {s : HState Q} {identity hwgroup : String} {hs : Headers}
    {extra : List String} (h : HInv s) :
    wp (registerWorker env identity hwgroup hs extra) s
      (fun _ s' => ∃ w cur o, w.identity = identity ∧
        (∀ r, cur = some r → ∃ n j, r = Req.incomplete n j) ∧ Drv env s [.add w cur o] s') AnyErr := by
  simp only [registerWorker, wp_bind, wp_get, wp_liftE]
  cases hc : Worker.create (env.alloc s.allocs s.addrs) identity hwgroup hs
      (initExtra extra "" none).1 with
  | error x => trivial
  | ok w =>
    simp only [wp_set, qAddWorker, wp_bind, wp_get, wp_liftE]
    have hwf : w.WF := Worker.create_wf hc
    have haddr : w.addr = env.alloc s.allocs s.addrs := (Worker.create_fields hc).1
    have hfresh : w.addr ∉ (reg s.queue).map (·.addr) := by
      rw [← h.reg_eq, haddr]
      intro hm
      have hm : env.alloc s.allocs s.addrs ∈ s.workers.map (·.addr) := by simpa using hm
      exact env.alloc_fresh s.allocs s.addrs (List.mem_append_left _ hm)
    generalize hcur : (initExtra extra "" none).2.map (Req.incomplete s.nextRid) = cur
    obtain ⟨o, q', h1, h2, h3, h4⟩ := LawfulQM.add env.srt cur h.qinv hwf hfresh
    simp only [h1, wp_modify, wp_pure]
    have hp : QPath env.srt s.queue [.add w cur o] q' := .single (.add hwf hfresh h1)
    refine wp_mono (R := fun _ s' => ∃ o, Drv env s [.add w cur o] s') (E := AnyErr) ?_ ?_
      (fun _ _ h => h)
    · cases o with
      | none =>
        simp only [wp_pure]
        exact ⟨none, .one hp (by simp [QOp.sends, QOp.gives, evals]) (by simp)⟩
      | some r =>
        simp only [sendRequest, wp_respond]
        exact ⟨some r, .one hp (by simp [QOp.sends, QOp.gives, evals_append, sendMsg]) (by simp)⟩
    · rintro _ s' ⟨o, hd⟩
      refine ⟨w, cur, o, (Worker.create_fields hc).2.1, ?_, hd.mono rfl rfl⟩
      intro r hr
      rw [← hcur] at hr
      obtain ⟨j, _, rfl⟩ := Option.map_eq_some_iff.1 hr
      exact ⟨_, j, rfl⟩

theorem drv_init {env : Env} {s : HState Q} {m : Msg} {args : List String} (h : HInv s)
    (hk : m.key = keyWorkers) (hd : m.data = "init" :: args) :
    wp (processInit env m.identity m.data) s
      (fun _ s' => ∃ ops, Drv env s ops s' ∧ OpShape (regFind m.identity s.workers) m ops) AnyErr := by
  have hhd : m.data.head? = some "init" := by rw [hd]; rfl
  rw [hd]
  match args with
  | [] => exact ⟨[], Drv.refl' rfl rfl, .none⟩
  | hwgroup :: rest =>
    simp only [processInit, wp_bind, wp_get]
    split
    · split
      · exact ⟨[], Drv.refl' rfl rfl, .none⟩
      · simp only [wp_bind, notifyError, wp_respond]
        refine wp_mono (drv_register ?_) ?_ (fun _ _ h => h)
        · exact h.of_eq rfl rfl
        rintro _ s' ⟨w, cur, o, hi, hcur, hdr⟩
        exact ⟨_, hdr.from rfl (evals_snoc (isEval_not _ _)), .init hk hhd hi hcur⟩
    · refine wp_mono (drv_register h) ?_ (fun _ _ h => h)
      rintro _ s' ⟨w, cur, o, hi, hcur, hdr⟩
      exact ⟨_, hdr, .init hk hhd hi hcur⟩

theorem drv_doneOk {env : Env} {s : HState Q} {w : Worker} {r : Req} (hq : Inv s.queue)
    (hb : (w, r) ∈ busy s.queue) :
    wp (doneOk env w r.jobId) s (fun _ s' => ∃ o, Drv env s [.finish w o] s') AnyErr := by
  simp only [doneOk, notifyDone, wp_bind, wp_respond]
  have h := drv_finish (env := env) (s := { s with outs := s.outs ++ [⟨keyNotifier, "",
    ["type", "job-status", "id", r.jobId, "status", "OK"]⟩] }) hq hb
  rw [wp_bind] at h
  refine wp_mono h ?_ (fun _ _ h => h)
  intro o s1 h1
  refine wp_mono h1 ?_ (fun _ _ h => h)
  rintro _ s2 ⟨o, hd⟩
  simp only [countEvaluated, wp_modify]
  exact ⟨o, (hd.from (s := s) rfl (evals_snoc (isEval_not _ _))).mono rfl rfl⟩

theorem drv_cancel {env : Env} {s : HState Q} {w : Worker} {r : Req} {q' : Q} {fc : Nat → Nat}
    {os : List Msg} (hb : (w, r) ∈ busy s.queue) (h1 : workerCancelled s.queue w = (some r, q'))
    (ho : evals os = evals s.outs) :
    Drv env s [.cancel w r] { s with queue := q', fc := fc, outs := os } :=
  .one (.single (.cancel hb h1)) (by rw [ho]; simp [QOp.sends, QOp.gives, evals]) (by simp)

theorem drv_doneFailed {env : Env} {s : HState Q} {w : Worker} {r : Req} {text : String}
    (hq : Inv s.queue) (hb : (w, r) ∈ busy s.queue) :
    wp (doneFailed env w r.jobId text) s
      (fun _ s' => ∃ o, Drv env s [.cancel w r, .assign w o] s') AnyErr := by
  obtain ⟨q', h1, h2, h3, hbb, _⟩ := LawfulQM.cancelled hq hb
  simp only [doneFailed, notifyFailed, wp_bind, wp_respond, qCancelled, wp_get, h1, wp_modify,
    wp_pure, bumpCount]
  have hw : w ∈ reg q' := by rw [h3]; exact busy_reg hq _ hb
  have h := drv_assign (env := env) (w := w)
    (s := { s with
      queue := q'
      fc := upd s.fc r.rid (szInc (s.fc r.rid))
      outs := s.outs ++ [⟨keyNotifier, "",
        ["type", "job-status", "id", r.jobId, "status", "FAILED", "message", text]⟩] })
    h2 hw (idle_of_busy_cons hq hbb)
  rw [wp_bind] at h
  refine wp_mono h ?_ (fun _ _ h => h)
  intro o s1 h4
  refine wp_mono h4 ?_ (fun _ _ h => h)
  rintro _ s2 ⟨o, hd⟩
  simp only [countFailed, wp_modify]
  exact ⟨o, ((drv_cancel hb h1 (evals_snoc (isEval_not _ _))).trans hd).mono rfl rfl⟩

theorem drv_doneInternal {cfg : HConfig} {env : Env} {s : HState Q} {w : Worker} {r : Req}
    {text : String} (hq : Inv s.queue) (hb : (w, r) ∈ busy s.queue) :
    wp (doneInternal cfg env w text) s
      (fun _ s' => (r.complete = false ∧ Drv env s [.cancel w r] s') ∨
        (∃ o, Drv env s [.cancel w r, .assign w o] s') ∨
        (r.complete = true ∧ ∃ now res, Drv env s [.cancel w r, .enq now r res] s')) AnyErr := by
  obtain ⟨q', h1, h2, h3, hbb, _⟩ := LawfulQM.cancelled hq hb
  simp only [doneInternal, wp_bind, qCancelled, wp_get, h1, wp_modify, wp_pure, bumpCount]
  have hw : w ∈ reg q' := by rw [h3]; exact busy_reg hq _ hb
  by_cases hc : r.complete = false
  · rw [if_pos hc]
    simp only [wp_bind, notifyRejected, wp_respond, countFailed, wp_modify]
    exact .inl ⟨hc, (drv_cancel (fc := upd s.fc r.rid (szInc (s.fc r.rid))) hb h1
      (evals_snoc (isEval_not _ _))).mono rfl rfl⟩
  · rw [if_neg hc]
    have hcomp : r.complete = true := by simpa using hc
    rw [wp_bind]
    refine wp_mono (drv_checkFailureCount (cfg := cfg) (env := env) (r := r) (text := text)) ?_
      (fun _ _ h => h)
    rintro b s2 ⟨hd2, hq2⟩
    have hd1 := (drv_cancel (env := env) (fc := upd s.fc r.rid (szInc (s.fc r.rid))) hb h1
      (os := s.outs) rfl).trans hd2
    cases b with
    | true =>
      simp only [if_true, wp_bind]
      refine wp_mono (drv_reassign (env := env) (r := r) (by rw [hq2]; exact h2)) ?_
        (fun _ _ h => h)
      rintro b s3 ⟨now, res, hd3⟩
      simp only [wp_pure, countFailed, wp_modify]
      exact .inr (.inr ⟨hcomp, now, res, (hd1.trans hd3).mono rfl rfl⟩)
    | false =>
      simp only [Bool.false_eq_true, if_false]
      have h := drv_assign (env := env) (s := s2) (by rw [hq2]; exact h2)
        (by rw [hq2]; exact hw) (by rw [hq2]; exact idle_of_busy_cons hq hbb)
      rw [wp_bind] at h
      rw [wp_bind]
      refine wp_mono h ?_ (fun _ _ h => h)
      intro o s3 h5
      rw [wp_bind]
      refine wp_mono h5 ?_ (fun _ _ h => h)
      rintro _ s4 ⟨o, hd4⟩
      simp only [countFailed, wp_modify]
      exact .inr (.inl ⟨o, (hd1.trans hd4).mono rfl rfl⟩)

theorem drv_done {cfg : HConfig} {env : Env} {s : HState Q} {m : Msg} {args : List String}
    {sender : Option Worker} (hsd : regFind m.identity s.workers = sender) (h : HInv s) (hk : m.key = keyWorkers) (hd : m.data = "done" :: args) :
    wp (processDone cfg env m.identity m.data) s
      (fun _ s' => ∃ ops, Drv env s ops s' ∧ OpShape sender m ops) AnyErr := by
  have stay : ∃ ops, Drv env s ops s ∧ OpShape sender m ops := ⟨[], Drv.refl' rfl rfl, .none⟩
  rw [hd]
  simp only [processDone, wp_bind, wp_get]
  cases hfind : regFind m.identity s.workers with
  | none => exact stay
  | some w =>
    have hw := (regFind_mem hfind).1
    match args, hd with
    | [], _ => exact stay
    | [_], _ => exact stay
    | j :: st :: rest, hd =>
      simp only [wp_bind]
      refine wp_qCurrent h hw (fun _ => trivial) ?_
      intro r hb
      simp only
      by_cases hj : j = r.jobId
      · subst hj
        simp only [ne_eq, not_true_eq_false, if_false]
        have tail : ∀ {mm : HM Q Unit},
            wp mm s (fun _ s' => DFrame s s' ∧ ∃ evs, Sim cfg.maxFailures s 0 evs s' 0 ∧
              DoneScript cfg.maxFailures s s' w r st rest evs) NoErr →
            wp mm s (fun _ s' => ∃ ops, Drv env s ops s' ∧ OpShape sender m ops) AnyErr →
            wp (do mm; let _ ← qCurrent w) s
              (fun _ s' => ∃ ops, Drv env s ops s' ∧ OpShape sender m ops) AnyErr := by
          intro mm hm hm'
          rw [wp_bind]
          refine wp_mono (wp_and hm hm') ?_ (fun _ _ hE => hE)
          rintro _ s' ⟨⟨hf, evs, hsim, _⟩, hops⟩
          rw [wp_bind]
          have hw' : w ∈ s'.workers := by rw [hf.workers]; exact hw
          exact wp_qCurrent hsim.inv hw' (fun _ => hops) (fun _ _ => hops)
        by_cases hok : st = "OK"
        · subst hok
          rw [if_pos rfl]
          refine tail (wp_doneOk h hw hb) (wp_mono (drv_doneOk h.qinv hb) ?_ (fun _ _ hE => hE))
          rintro _ s' ⟨o, hdr⟩
          exact ⟨_, hdr, .ok hk hd (hsd.symm.trans hfind)⟩
        · rw [if_neg hok]
          by_cases hie : st = "INTERNAL_ERROR"
          · subst hie
            rw [if_pos rfl]
            match rest, hd with
            | [text], hd =>
              refine tail (wp_doneInternal h hw hb)
                (wp_mono (drv_doneInternal h.qinv hb) ?_ (fun _ _ hE => hE))
              rintro _ s' (⟨hc, hdr⟩ | ⟨o, hdr⟩ | ⟨hc, now, res, hdr⟩)
              · exact ⟨_, hdr, .adopted hk hd (hsd.symm.trans hfind) hc⟩
              · exact ⟨_, hdr, .failed hk hd (Or.inr rfl) (hsd.symm.trans hfind)⟩
              · exact ⟨_, hdr, .again hk hd (hsd.symm.trans hfind) hc⟩
            | [], _ => exact stay
            | _ :: _ :: _, _ => exact stay
          · rw [if_neg hie]
            by_cases hfa : st = "FAILED"
            · subst hfa
              rw [if_pos rfl]
              match rest, hd with
              | [text], hd =>
                refine tail (wp_doneFailed h hw hb)
                  (wp_mono (drv_doneFailed h.qinv hb) ?_ (fun _ _ hE => hE))
                rintro _ s' ⟨o, hdr⟩
                exact ⟨_, hdr, .failed hk hd (Or.inl rfl) (hsd.symm.trans hfind)⟩
              | [], _ => exact stay
              | _ :: _ :: _, _ => exact stay
            · rw [if_neg hfa, wp_bind]
              exact wp_qCurrent h hw (fun _ => stay) (fun _ _ => stay)
      · rw [if_pos hj]
        exact stay

/-! ## Timer -/

/-- Operations of a timer event. -/
def TimerOps (ops : List QOp) : Prop := ∀ op ∈ ops, (∃ w rs, op = .term w rs) ∨
  ∃ now r res, op = .enq now r res ∧ r.complete = true

theorem TimerOps.append {a b : List QOp} (h1 : TimerOps a) (h2 : TimerOps b) :
    TimerOps (a ++ b) := by
  intro op h
  rcases List.mem_append.1 h with h | h
  · exact h1 op h
  · exact h2 op h

theorem drv_settle {cfg : HConfig} {env : Env} : ∀ {rs : List Req} {s : HState Q}
    (_ : Inv s.queue),
    wp (settleRequests cfg env rs) s
      (fun _ s' => ∃ ops, Drv env s ops s' ∧ TimerOps ops) AnyErr := by
  intro rs
  induction rs with
  | nil => intro s _; exact ⟨[], Drv.refl' rfl rfl, by simp [TimerOps]⟩
  | cons r rs ih =>
    intro s hq
    simp only [settleRequests]
    by_cases hc : r.complete = false
    · rw [if_pos hc]
      simp only [wp_bind, notifyRejected, notifyMonitor, wp_respond]
      refine wp_mono (ih hq) ?_ (fun _ _ h => h)
      rintro _ s' ⟨ops, hd, ho⟩
      refine ⟨ops, hd.from (s := s) rfl ?_, ho⟩
      show evals (s.outs ++ [_] ++ [_]) = _
      rw [evals_snoc (isEval_mon _), evals_snoc (isEval_not _ _)]
    · rw [if_neg hc]
      have hcomp : r.complete = true := by simpa using hc
      rw [wp_bind]
      refine wp_mono (drv_checkFailureCount (cfg := cfg) (env := env) (r := r)
        (text := timeoutMsg)) ?_ (fun _ _ h => h)
      rintro b s1 ⟨hd1, hq1⟩
      have hi1 : Inv s1.queue := by rw [hq1]; exact hq
      cases b with
      | false =>
        simp only [Bool.false_eq_true, if_false]
        refine wp_mono (ih hi1) ?_ (fun _ _ h => h)
        rintro _ s' ⟨ops, hd, ho⟩
        exact ⟨_, hd1.trans hd, ho⟩
      | true =>
        simp only [if_true, wp_bind]
        refine wp_mono (drv_reassign (env := env) (r := r) hi1) ?_ (fun _ _ h => h)
        rintro b s2 ⟨now, res, hd2⟩
        have hi2 : Inv s2.queue := hd2.path.inv hi1
        have hone : TimerOps [.enq now r res] := by
          intro op hop
          rw [List.mem_singleton] at hop
          exact .inr ⟨now, r, res, hop, hcomp⟩
        cases b with
        | true =>
          simp only [if_true, wp_bind, notifyMonitor, wp_respond]
          refine wp_mono (ih (s := { s2 with outs := s2.outs ++
            [⟨keyMonitor, monitorIdentity, [r.jobId, "ABORTED"]⟩] }) hi2) ?_ (fun _ _ h => h)
          rintro _ s' ⟨ops, hd, ho⟩
          exact ⟨_, (hd1.trans hd2).trans (hd.from (s := s2) rfl (evals_snoc (isEval_mon _))),
            hone.append ho⟩
        | false =>
          simp only [Bool.false_eq_true, if_false, wp_bind, wp_pure]
          refine wp_mono (ih hi2) ?_ (fun _ _ h => h)
          rintro _ s' ⟨ops, hd, ho⟩
          exact ⟨_, (hd1.trans hd2).trans hd, hone.append ho⟩

theorem drv_rejectAll {env : Env} {desc : String} : ∀ {un : List Req} {s : HState Q},
    wp (rejectAll desc un) s (fun _ s' => Drv env s [] s') AnyErr := by
  intro un
  induction un with
  | nil => intro s; exact Drv.refl' rfl rfl
  | cons r un ih =>
    intro s
    simp only [rejectAll, wp_bind, notifyRejected, wp_respond]
    refine wp_mono ih ?_ (fun _ _ h => h)
    intro _ s' hd
    exact hd.from (s := s) rfl (evals_snoc (isEval_not _ _))

theorem drv_expireWorker {cfg : HConfig} {env : Env} {s : HState Q} {w : Worker} (h : HInv s)
    (hw : w ∈ s.workers) :
    wp (expireWorker cfg env w) s (fun _ s' => ∃ ops, Drv env s ops s' ∧ TimerOps ops) AnyErr := by
  have hwr := h.mem_reg.1 hw
  obtain ⟨c1, _⟩ := LawfulQM.current h.qinv hwr
  obtain ⟨cur, qs, q', t1, t2, _⟩ := LawfulQM.terminated h.qinv hwr
  simp only [expireWorker, wp_bind, wp_modify, qCurrent, wp_get, c1]
  have rest : ∀ fc : Nat → Nat, wp (qTerminated w >>= fun requests =>
      settleRequests cfg env requests >>= fun unassigned =>
        rejectAll ("Worker " ++ w.getDescription ++ " dieded") unassigned)
      { s with workers := regRemove w s.workers, queue := s.queue, fc := fc }
      (fun _ s' => ∃ ops, Drv env s ops s' ∧ TimerOps ops) AnyErr := by
    intro fc
    simp only [qTerminated, wp_bind, wp_get, wp_liftE, t1, wp_modify, wp_pure]
    refine wp_mono (drv_settle (env := env) ?_) ?_ (fun _ _ h => h)
    · exact t2
    rintro un s1 ⟨ops, hd, ho⟩
    refine wp_mono (drv_rejectAll (env := env)) ?_ (fun _ _ h => h)
    intro _ s2 hd2
    have h0 : Drv env s [.term w (cur.toList ++ qs)]
        { s with workers := regRemove w s.workers, queue := q', fc := fc } :=
      .one (.single (.term hwr t1)) (by simp [QOp.sends, QOp.gives, evals]) (by simp)
    refine ⟨_, (h0.trans hd).trans hd2, ?_⟩
    rw [List.append_nil]
    refine TimerOps.append ?_ ho
    intro op hop
    rw [List.mem_singleton] at hop
    exact .inl ⟨_, _, hop⟩
  simp only [wp_bind] at rest
  cases (currentRequest s.queue w).1 with
  | none => simp only [wp_pure, wp_bind]; exact rest s.fc
  | some r =>
    simp only [wp_pure, bumpCount, wp_bind, wp_modify]
    exact rest _

theorem drv_expireWorkers {cfg : HConfig} {env : Env} : ∀ {xs : List Worker} {s : HState Q}
    (_ : HInv s) (_ : xs.Nodup) (_ : ∀ w ∈ xs, w ∈ s.workers),
    wp (expireWorkers cfg env xs) s
      (fun _ s' => ∃ ops, Drv env s ops s' ∧ TimerOps ops) AnyErr := by
  intro xs
  induction xs with
  | nil => intro s h _ _; exact ⟨[], Drv.refl' rfl rfl, by simp [TimerOps]⟩
  | cons w ws ih =>
    intro s h hn hm
    simp only [expireWorkers, wp_bind]
    refine wp_mono (wp_and (wp_expireWorker (hand := 0) h (hm w (by simp)))
      (drv_expireWorker h (hm w (by simp)))) ?_ (fun _ _ hE => hE)
    rintro _ s1 ⟨⟨hf1, hw1, evs1, hsim1, hscr1⟩, ops1, hd1, ho1⟩
    rw [List.nodup_cons] at hn
    have hm1 : ∀ x ∈ ws, x ∈ s1.workers := by
      intro x hx
      rw [hw1]
      have hp := regRemove_perm h.addr_nodup (hm w (by simp))
      have : x ∈ w :: regRemove w s.workers := hp.mem_iff.1 (hm x (List.mem_cons_of_mem _ hx))
      rcases List.mem_cons.1 this with rfl | h'
      · exact absurd hx hn.1
      · exact h'
    refine wp_mono (ih hsim1.inv hn.2 hm1) ?_ (fun _ _ hE => hE)
    rintro _ s2 ⟨ops2, hd2, ho2⟩
    exact ⟨_, hd1.trans hd2, ho1.append ho2⟩

theorem drv_timer {cfg : HConfig} {env : Env} {s : HState Q} {data : List String} (h : HInv s) :
    wp (processTimer cfg env data) s
      (fun _ s' => ∃ ops, Drv env s ops s' ∧ TimerOps ops) AnyErr := by
  cases data with
  | nil => trivial
  | cons f rest =>
    simp only [processTimer, wp_bind, wp_liftE]
    cases ht : stoll f with
    | error x => trivial
    | ok time =>
      simp only [wp_bind, wp_get]
      refine wp_mono (wp_tickWorkers h.addr_nodup) ?_ (fun _ _ hE => hE)
      rintro xs s1 ⟨htf, hsub, _⟩
      have hinv1 : HInv s1 := h.of_eq (by rw [htf]) (by rw [htf])
      have hw1 : s1.workers = s.workers := by rw [htf]
      have hn : xs.Nodup := hsub.nodup (List.Nodup.of_map _ h.addr_nodup)
      have hm : ∀ w ∈ xs, w ∈ s1.workers := fun w hw => by rw [hw1]; exact hsub.subset hw
      refine wp_mono (wp_and (wp_expireWorkers (cfg := cfg) (env := env) (hand := 0) hinv1 hn hm)
        (drv_expireWorkers hinv1 hn hm)) ?_ (fun _ _ hE => hE)
      rintro _ s2 ⟨⟨_, _, evs, hsim2, _⟩, ops, hd, ho⟩
      refine wp_mono (wp_updateGauges hsim2.inv) ?_ (fun _ _ hE => hE)
      rintro _ s3 ⟨h3, _⟩
      exact ⟨ops, (hd.from (s := s) (by rw [htf]) (by rw [htf]) (by rw [htf])).mono (by rw [h3])
        (by rw [h3]) (by rw [h3]), ho⟩

/-! ## Steps -/

theorem drv_onRequest {cfg : HConfig} {env : Env} {s : HState Q} {m : Msg} (h : HInv s) :
    wp (onRequest cfg env m) s
      (fun _ s' => ∃ ops, Drv env s ops s' ∧ OpShape (regFind m.identity s.workers) m ops) AnyErr := by
  simp only [onRequest]
  by_cases hk : m.key = keyWorkers
  · rw [if_pos hk, wp_bind]
    unfold wp
    rw [touchWorker_eq]
    simp only
    have hfr := heard_frame cfg m.identity s
    have h1 : HInv (s.heard cfg m.identity) := h.of_eq (by rw [hfr]) (by rw [hfr])
    have houts : (s.heard cfg m.identity).outs = s.outs := by rw [hfr]
    have hqs : (s.heard cfg m.identity).queue = s.queue := by rw [hfr]
    cases hdat : m.data with
    | nil => trivial
    | cons c rest =>
      change wp (workerCommand cfg env c m.identity (c :: rest)) (s.heard cfg m.identity) _ _
      have back : ∀ {mm : HM Q Unit}, wp mm (s.heard cfg m.identity)
          (fun _ s' => ∃ ops, Drv env (s.heard cfg m.identity) ops s' ∧
            OpShape (regFind m.identity (s.heard cfg m.identity).workers) m ops) AnyErr →
          wp mm (s.heard cfg m.identity) (fun _ s' => ∃ ops, Drv env s ops s' ∧
            OpShape (regFind m.identity s.workers) m ops) AnyErr := by
        intro mm hmm
        have hws : (s.heard cfg m.identity).workers = s.workers := by rw [hfr]
        rw [hws] at hmm
        refine wp_mono hmm ?_ (fun _ _ hE => hE)
        rintro _ s' ⟨ops, hd, ho⟩
        exact ⟨ops, hd.from hqs (by rw [houts]) (by rw [hfr]), ho⟩
      refine back ?_
      simp only [workerCommand]
      split
      · next hc => subst hc; rw [← hdat]; exact drv_init h1 hk hdat
      · split
        · next hc => subst hc; rw [← hdat]; exact drv_done rfl h1 hk hdat
        · split
          · simp only [processPing, wp_bind, wp_get]
            split <;> simp only [wp_respond] <;>
              exact ⟨[], Drv.refl' rfl (evals_snoc (by simp [isGive])), .none⟩
          · split
            · simp only [processProgress, wp_respond]
              exact ⟨[], Drv.refl' rfl (evals_snoc (isEval_mon _)), .none⟩
            · exact ⟨[], Drv.refl' rfl rfl, .none⟩
  · rw [if_neg hk]
    by_cases hc : m.key = keyClients
    · rw [if_pos hc]
      cases hdat : m.data with
      | nil => trivial
      | cons c rest =>
        simp only [clientCommand]
        split
        · next hcc => subst hcc; rw [← hdat]; exact drv_eval h.qinv hc hdat
        · split
          · simp only [processStats, wp_bind, wp_get, wp_respond]
            exact ⟨[], Drv.refl' rfl (evals_snoc (isEval_cli _ _)), .none⟩
          · split
            · simp only [processFreeze, wp_bind, wp_modify, wp_respond]
              exact ⟨[], Drv.refl' rfl (evals_snoc (isEval_cli _ _)), .none⟩
            · split
              · simp only [processUnfreeze, wp_bind, wp_modify, wp_respond]
                exact ⟨[], Drv.refl' rfl (evals_snoc (isEval_cli _ _)), .none⟩
              · exact ⟨[], Drv.refl' rfl rfl, .none⟩
    · rw [if_neg hc]
      by_cases ht : m.key = keyTimer
      · rw [if_pos ht]
        refine wp_mono (drv_timer h) ?_ (fun _ _ hE => hE)
        rintro _ s' ⟨ops, hd, ho⟩
        exact ⟨ops, hd, .timer ht ho⟩
      · rw [if_neg ht]
        exact ⟨[], Drv.refl' rfl rfl, .none⟩

/-- Every normal step is a sequence of queue operations of the shape its message prescribes, the
    evaluation messages it emits are those of the operations, and the times of enqueueing are clock
    readings of the step. -/
theorem step_drv {cfg : HConfig} {env : Env} {m : Msg} {s s' : HState Q} (h : HInv s)
    (hs : step cfg env m s = .ok () s') :
    ∃ ops, Drv env { s with outs := [] } ops s' ∧ OpShape (regFind m.identity s.workers) m ops := by
  have h0 : HInv ({ s with outs := [] } : HState Q) := h.of_eq rfl rfl
  have := drv_onRequest (cfg := cfg) (env := env) (m := m) h0
  unfold wp at this
  unfold step at hs
  rw [hs] at this
  exact this

theorem step_ops {cfg : HConfig} {env : Env} {m : Msg} {s s' : HState Q} (h : HInv s)
    (hs : step cfg env m s = .ok () s') :
    ∃ ops, QPath env.srt s.queue ops s'.queue ∧ OpShape (regFind m.identity s.workers) m ops ∧
      evals s'.outs = evals (ops.flatMap QOp.sends) := by
  obtain ⟨ops, hd, ho⟩ := step_drv h hs
  exact ⟨ops, hd.path, ho, by rw [hd.sends]; simp [evals]⟩

end Broker
