import Verif.Proof.Heard
import Verif.Proof.MultiLaws
import Verif.Proof.Trace

/-!
# Results of different workers

With the multi-queue manager a final result concerns nobody but the worker that reports it.
-/

set_option linter.unusedSectionVars false
set_option linter.unusedSimpArgs false

namespace Broker

namespace Spec

/-- A `done` message that does not ask for the job to be tried again. -/
def Final (m : Msg) : Prop :=
  m.key = "workers" ∧ m.data.head? = some "done" ∧ m.data[2]? ≠ some "INTERNAL_ERROR"

instance (m : Msg) : Decidable (Final m) := by unfold Final; exact inferInstance

end Spec

open QueueManager Spec

/-! ## Maps -/

namespace WMap
variable {V : Type}

theorem put_put (m : WMap V) (w : Worker) (u v : V) : (m.put w u).put w v = m.put w v := by
  induction m with
  | nil => simp [put]
  | cons e t ih =>
    obtain ⟨x, z⟩ := e
    by_cases h : x.addr = w.addr
    · simp [put, h]
    · by_cases h2 : w.addr < x.addr
      · simp [put, h, h2]
      · simp [put, h, h2, ih]

theorem put_map {m : WMap V} {w : Worker} (hs : m.Sorted) (hw : w ∈ m.map (·.1)) (v : V) :
    m.put w v = m.map fun e => if e.1.addr = w.addr then (e.1, v) else e := by
  obtain ⟨u, l, r, h1, _, h3, _⟩ := WMap.split hs hw
  have hn := hs.addr_nodup
  rw [h3]
  conv => rhs; rw [h1]
  rw [h1] at hn
  simp only [List.map_append, List.map_cons, List.nodup_append, List.nodup_cons, List.mem_map,
    List.mem_cons] at hn
  obtain ⟨_, ⟨n2, _⟩, n3⟩ := hn
  have hl : l.map (fun e => if e.1.addr = w.addr then (e.1, v) else e) = l := by
    conv => rhs; rw [← List.map_id l]
    refine List.map_congr_left fun e he => ?_
    rw [if_neg (n3 _ ⟨e, he, rfl⟩ _ (.inl rfl))]; rfl
  have hr : r.map (fun e => if e.1.addr = w.addr then (e.1, v) else e) = r := by
    conv => rhs; rw [← List.map_id r]
    refine List.map_congr_left fun e he => ?_
    rw [if_neg (fun h => n2 ⟨e, he, h⟩)]; rfl
  rw [List.map_append, List.map_cons, hl, hr, if_pos rfl]

theorem put_comm {m : WMap V} {w x : Worker} (hs : m.Sorted) (hw : w ∈ m.map (·.1))
    (hx : x ∈ m.map (·.1)) (h : x.addr ≠ w.addr) (u v : V) :
    (m.put w u).put x v = (m.put x v).put w u := by
  have kw := put_keys hs hw u
  have kx := put_keys hs hx v
  rw [put_map (hs.of_keys kw) (kw ▸ hx), put_map (hs.of_keys kx) (kx ▸ hw), put_map hs hw,
    put_map hs hx, List.map_map, List.map_map]
  refine List.map_congr_left fun e _ => ?_
  simp only [Function.comp]
  by_cases h1 : e.1.addr = w.addr
  · have h2 : ¬ e.1.addr = x.addr := fun h2 => h (h2.symm.trans h1)
    simp [h1, h2, Ne.symm h]
  · by_cases h2 : e.1.addr = x.addr
    · simp [h1, h2, h]
    · simp [h1, h2]

theorem getD_put_away {m : WMap V} {w x : Worker} {v d : V} (h : x.addr ≠ w.addr) :
    (m.put w v).getD x d = m.getD x d := by
  unfold getD; rw [find_put_of_ne h]

theorem getD_put_here {m : WMap V} {w : Worker} {v d : V} : (m.put w v).getD w d = v := by
  unfold getD; rw [find_put_self]; rfl

theorem put_emplace (m : WMap V) (w : Worker) (u v : V) : (m.put w u).emplace w v = m.put w u := by
  induction m with
  | nil => simp [put, emplace]
  | cons e t ih =>
    obtain ⟨x, z⟩ := e
    by_cases h : x.addr = w.addr
    · simp [put, emplace, h]
    · by_cases h2 : w.addr < x.addr
      · simp [put, emplace, h, h2]
      · simp [put, emplace, h, h2, ih]

theorem put_same {m : WMap V} {w : Worker} {v d : V} (hs : m.Sorted) (hw : w ∈ m.map (·.1))
    (h : m.getD w d = v) : m.put w v = m := by
  obtain ⟨u, l, r, h1, h2, h3, _⟩ := WMap.split hs hw
  unfold getD at h
  rw [h2] at h
  simp only [Option.getD_some] at h
  rw [h3, ← h, ← h1]

end WMap

/-! ## The queue of one worker -/

namespace Multi

/-- The worker takes the next job from its queue. -/
def advance (w : Worker) (q : Multi) : Multi :=
  { q with queues := q.queues.put w (q.queues.getD w []).tail,
           current := q.current.put w (q.queues.getD w []).head? }

/-- The worker is known. -/
structure Has (q : Multi) (w : Worker) : Prop where
  curSorted : q.current.Sorted
  queSorted : q.queues.Sorted
  cur : w ∈ q.current.map (·.1)
  que : w ∈ q.queues.map (·.1)

theorem Has.assign {q : Multi} {w : Worker} (h : q.Has w) (c : Option Req) :
    ({ q with current := q.current.put w c } : Multi).assignRequest w =
      ((q.queues.getD w []).head?, if q.queues.getD w [] = [] then
        { q with current := q.current.put w c } else q.advance w) := by
  unfold assignRequest
  simp only
  cases hq : q.queues.getD w [] with
  | nil =>
    obtain ⟨_, _, _, _, _, _, _, h5⟩ := WMap.split h.queSorted h.que
    simp only [h5, List.head?_nil, if_true]
  | cons r t =>
    simp only [List.head?_cons, advance, hq, List.tail_cons, WMap.put_put]
    rfl

theorem Has.finish {q : Multi} {w : Worker} (h : q.Has w) :
    q.workerFinished w = ((q.queues.getD w []).head?, q.advance w) := by
  unfold workerFinished
  rw [h.assign]
  cases hq : q.queues.getD w [] with
  | nil =>
    simp only [if_true, advance, hq, List.tail_nil, List.head?_nil,
      WMap.put_same h.queSorted h.que hq]
  | cons r t => simp

theorem advance_current (w : Worker) (q : Multi) :
    (q.advance w).currentRequest w = ((q.queues.getD w []).head?, q.advance w) := by
  simp only [currentRequest, advance, WMap.getD_put_here, WMap.put_emplace]

theorem advance_comm {q : Multi} {w x : Worker} (hw : q.Has w) (hx : q.Has x)
    (h : x.addr ≠ w.addr) : (q.advance w).advance x = (q.advance x).advance w := by
  simp only [advance, WMap.getD_put_away h, WMap.getD_put_away h.symm]
  rw [WMap.put_comm hw.queSorted hw.que hx.que h, WMap.put_comm hw.curSorted hw.cur hx.cur h]

end Multi

/-! ## A result -/

/-- What is made of a result. -/
inductive Upshot where
  | idle
  | ignored
  | good (job : String)
  | bad (r : Req) (job text : String)

/-- What is made of a result by a worker with this job. -/
def upshot (cur : Option Req) : List String → Upshot
  | _ :: jobId :: status :: rest =>
    match cur with
    | none => .idle
    | some c =>
      if jobId ≠ c.jobId then .ignored
      else if status = "OK" then .good jobId
      else if status = "FAILED" then
        match rest with
        | [text] => .bad c jobId text
        | _ => .ignored
      else .ignored
  | _ => .ignored

/-- The effect of a result on statistics, counts of failures and queues. -/
def Upshot.effect (w : Worker) : Upshot → HState Multi → HState Multi
  | .idle, s => s
  | .ignored, s => s
  | .good _, s => { s with queue := s.queue.advance w,
                           stats := { s.stats with evaluated := szInc s.stats.evaluated } }
  | .bad r _ _, s => { s with queue := s.queue.advance w,
                              fc := upd s.fc r.rid (szInc (s.fc r.rid)),
                              stats := { s.stats with failed := szInc s.stats.failed } }

/-- The next job of a worker. -/
def nextJob (w : Worker) : List Req → List Msg
  | [] => []
  | r :: _ => [⟨keyWorkers, w.identity, r.frames⟩]

/-- What is sent because of a result by a worker with this queue. -/
def Upshot.says (w : Worker) (queue : List Req) : Upshot → List Msg
  | .idle => []
  | .ignored => []
  | .good j => ⟨keyNotifier, "", ["type", "job-status", "id", j, "status", "OK"]⟩ :: nextJob w queue
  | .bad _ j t =>
    ⟨keyNotifier, "", ["type", "job-status", "id", j, "status", "FAILED", "message", t]⟩ ::
      nextJob w queue

/-- The result is undefined. -/
def Upshot.err : Upshot → Option Err
  | .idle => some (.ub .nullDeref)
  | _ => none

/-- State after a result. -/
def afterResult (cfg : HConfig) (w : Worker) (o : Upshot) (s : HState Multi) : HState Multi :=
  { o.effect w (s.hear (w.addr, cfg.maxLiveness)) with outs := o.says w (s.queue.queues.getD w []) }

theorem sendIf_eq (w : Worker) (l : List Req) (s : HState Multi) :
    sendIfSome w l.head? s = .ok () { s with outs := s.outs ++ nextJob w l } := by
  cases l with
  | nil => simp only [List.head?_nil, sendIfSome, nextJob, List.append_nil]; rfl
  | cons r t => rfl

theorem HInv.has {s : HState Multi} (h : HInv s) {w : Worker} (hw : w ∈ s.workers) :
    s.queue.Has w := by
  have hi : s.queue.Inv := h.qinv
  have hr : w ∈ s.queue.ring := by
    have := h.mem_reg.1 hw
    exact this
  exact ⟨hi.curSorted, hi.queSorted, hi.keysCur.mem_iff.2 hr, hi.keysQue.mem_iff.2 hr⟩

theorem qFinished_eq {env : Env} {w : Worker} {s : HState Multi} (h : s.queue.Has w) :
    qFinished env w s = .ok (s.queue.queues.getD w []).head? { s with queue := s.queue.advance w } := by
  simp only [qFinished, Bind.bind, EStateM.bind, MonadState.get, getThe, MonadStateOf.get,
    EStateM.get, QueueManager.workerFinished, h.finish, liftE, Pure.pure, EStateM.pure]
  rfl

theorem qCurrent_eq {w : Worker} {s : HState Multi} (h : s.queue.Has w) :
    qCurrent w s = .ok (s.queue.current.getD w none) s := by
  obtain ⟨_, _, _, _, _, _, _, h5⟩ := WMap.split h.curSorted h.cur
  simp only [qCurrent, Bind.bind, EStateM.bind, MonadState.get, getThe, MonadStateOf.get,
    EStateM.get, QueueManager.currentRequest, Multi.currentRequest, h5, Pure.pure, EStateM.pure]
  rfl

theorem qCurrent_advance {w : Worker} {s : HState Multi} {q : Multi} (h : s.queue = q.advance w) :
    qCurrent w s = .ok (q.queues.getD w []).head? s := by
  simp only [qCurrent, Bind.bind, EStateM.bind, MonadState.get, getThe, MonadStateOf.get,
    EStateM.get, QueueManager.currentRequest, h, Multi.advance_current, Pure.pure, EStateM.pure,
    modify, modifyGet, MonadStateOf.modifyGet, EStateM.modifyGet]
  rw [← h]

theorem doneOk_eq {env : Env} {w : Worker} {s : HState Multi} (h : s.queue.Has w) (j : String) :
    doneOk env w j s = .ok () (let o := Upshot.good j
      { o.effect w s with outs := s.outs ++ o.says w (s.queue.queues.getD w []) }) := by
  have h' : ({ s with outs := s.outs ++ [⟨keyNotifier, "", ["type", "job-status", "id", j, "status",
    "OK"]⟩] } : HState Multi).queue.Has w := h
  simp only [doneOk, Bind.bind, EStateM.bind]
  rw [show notifyDone j s = .ok () { s with outs := s.outs ++ [⟨keyNotifier, "", ["type",
    "job-status", "id", j, "status", "OK"]⟩] } from rfl]
  simp only [qFinished_eq h', sendIf_eq]
  show EStateM.Result.ok () _ = EStateM.Result.ok () _
  simp only [Upshot.effect, Upshot.says, List.append_assoc, List.cons_append, List.nil_append]

theorem doneFailed_eq {env : Env} {w : Worker} {s : HState Multi} (h : s.queue.Has w) {c : Req}
    (hc : s.queue.current.getD w none = some c) (j t : String) :
    doneFailed env w j t s = .ok () (let o := Upshot.bad c j t
      { o.effect w s with outs := s.outs ++ o.says w (s.queue.queues.getD w []) }) := by
  let x : Msg := ⟨keyNotifier, "", ["type", "job-status", "id", j, "status", "FAILED", "message", t]⟩
  have e1 : qCancelled w { s with outs := s.outs ++ [x] } =
      .ok (some c) { s with outs := s.outs ++ [x], queue := (s.queue.workerCancelled w).2 } := by
    simp only [qCancelled, Bind.bind, EStateM.bind, MonadState.get, getThe, MonadStateOf.get,
      EStateM.get, QueueManager.workerCancelled, Multi.workerCancelled, hc]
    rfl
  have e2 : ∀ u : HState Multi, u.queue = (s.queue.workerCancelled w).2 → qAssign env w u =
      .ok (s.queue.queues.getD w []).head? { u with queue := s.queue.advance w } := by
    intro u hu
    have e := h.finish
    unfold Multi.workerFinished at e
    simp only [qAssign, Bind.bind, EStateM.bind, MonadState.get, getThe, MonadStateOf.get,
      EStateM.get, QueueManager.assignRequest, hu, Multi.workerCancelled, liftE, Pure.pure,
      EStateM.pure, e]
    rfl
  simp only [doneFailed, Bind.bind, EStateM.bind]
  rw [show notifyFailed j t s = .ok () { s with outs := s.outs ++ [x] } from rfl]
  have e3 : ∀ u : HState Multi, bumpCount c u =
      .ok () { u with fc := upd u.fc c.rid (szInc (u.fc c.rid)) } := fun _ => rfl
  simp only [e1]
  simp only [Bind.bind, EStateM.bind, e3]
  rw [e2 _ rfl]
  simp only [sendIf_eq]
  show EStateM.Result.ok () _ = EStateM.Result.ok () _
  simp only [Upshot.effect, Upshot.says, List.append_assoc, List.cons_append, List.nil_append, x]

theorem result_step {cfg : HConfig} {env : Env} {m : Msg} (hm : Final m) {s : HState Multi}
    (hi : HInv s) (ht : s.rs.Timed) :
    match regFind m.identity s.workers with
    | none => step cfg env m s = .ok () { s with outs := [] }
    | some w =>
      match upshot (s.queue.current.getD w none) m.data with
      | .idle => step cfg env m s = .error (.ub .nullDeref) (afterResult cfg w .idle s)
      | o => step cfg env m s = .ok () (afterResult cfg w o s) := by
  obtain ⟨hk, hd, hne⟩ := hm
  obtain ⟨key, i, data⟩ := m
  have hk : key = keyWorkers := hk
  subst hk
  simp only at hd hne ⊢
  cases data with
  | nil => cases hd
  | cons c d =>
    simp only [List.head?_cons, Option.some.injEq] at hd
    subst hd
    have c1 : ¬ ("done" = "init") := by decide
    cases hf : regFind i s.workers with
    | none =>
      simp only [step, onRequest, if_true, Bind.bind, EStateM.bind, touchWorker, MonadState.get,
        getThe, MonadStateOf.get, EStateM.get, hf, Pure.pure, EStateM.pure, workerCommand,
        if_neg c1, processDone]
    | some w =>
      have hw : w ∈ s.workers := List.mem_of_find?_eq_some hf
      have hh := hi.has hw
      have e : s.timers.put w 0 = s.timers.reset w.addr :=
        WMap.put_eq_reset ht.sorted (ht.mem w hw)
      have h1 : step cfg env ⟨keyWorkers, i, "done" :: d⟩ s =
          processDone cfg env i ("done" :: d)
            (HState.hear (w.addr, cfg.maxLiveness) { s with outs := [] }) := by
        simp only [step, onRequest, if_true, Bind.bind, EStateM.bind, touchWorker, MonadState.get,
          getThe, MonadStateOf.get, EStateM.get, hf, MonadStateOf.set, EStateM.set, workerCommand,
          if_neg c1, HState.hear, e]
      rw [h1]
      generalize ht' : HState.hear (w.addr, cfg.maxLiveness) { s with outs := [] } = t
      have tw : t.workers = s.workers := by rw [← ht']; rfl
      have tq : t.queue = s.queue := by rw [← ht']; rfl
      have tnil : t.outs = [] := by rw [← ht']; rfl
      have hs : ∀ o, afterResult cfg w o s =
          { o.effect w t with outs := o.says w (t.queue.queues.getD w []) } := by
        intro o
        unfold afterResult
        rw [tq, ← ht']
        cases o <;> rfl
      simp only [hs]
      rw [← tq] at hh ⊢
      have te : ∀ u : HState Multi, u = t → { u with outs := ([] : List Msg) } = t := by
        rintro u rfl; rw [← tnil]
      unfold processDone
      simp only [Bind.bind, EStateM.bind, MonadState.get, getThe, MonadStateOf.get, EStateM.get, tw, hf]
      match d, hne with
      | [], _ => simp only [upshot, Upshot.effect, Upshot.says, te t rfl]; rfl
      | [_], _ => simp only [upshot, Upshot.effect, Upshot.says, te t rfl]; rfl
      | jobId :: status :: rest, hne =>
        have hst : status ≠ "INTERNAL_ERROR" := by
          intro h; exact hne (by rw [h]; rfl)
        simp only [Bind.bind, EStateM.bind, qCurrent_eq hh, upshot]
        cases hc : t.queue.current.getD w none with
        | none => simp only [Upshot.effect, Upshot.says, te t rfl]; rfl
        | some c =>
          simp only
          by_cases hj : jobId ≠ c.jobId
          · simp only [if_pos hj, Upshot.effect, Upshot.says, te t rfl]; rfl
          · simp only [if_neg hj, if_neg hst]
            by_cases ho : status = "OK"
            · simp only [if_pos ho, Bind.bind, EStateM.bind, doneOk_eq hh, tnil, List.nil_append]
              rw [qCurrent_advance (q := t.queue) rfl]
              rfl
            · simp only [if_neg ho]
              by_cases hb : status = "FAILED"
              · simp only [if_pos hb]
                match rest with
                | [] => simp only [Upshot.effect, Upshot.says, te t rfl]; rfl
                | _ :: _ :: _ => simp only [Upshot.effect, Upshot.says, te t rfl]; rfl
                | [text] =>
                  simp only [Bind.bind, EStateM.bind, doneFailed_eq hh hc, tnil, List.nil_append]
                  rw [qCurrent_advance (q := t.queue) rfl]
                  rfl
              · simp only [if_neg hb, Upshot.effect, Upshot.says, te t rfl, Bind.bind,
                  EStateM.bind, qCurrent_eq hh]
                rfl

/-! ## Two results -/

theorem WMap.reset_comm (a b : Nat) (m : WMap Int) :
    (m.reset a).reset b = (m.reset b).reset a := by
  simp only [reset, List.map_map]
  refine List.map_congr_left fun e _ => ?_
  simp only [Function.comp]
  by_cases h1 : e.1.addr = a
  · by_cases h2 : e.1.addr = b
    · rw [if_pos h1, if_pos h2, if_pos h2, if_pos h1]
    · rw [if_pos h1, if_neg h2, if_neg h2, if_pos h1]
  · by_cases h2 : e.1.addr = b
    · rw [if_neg h1, if_pos h2, if_neg h1]
    · rw [if_neg h1, if_neg h2, if_neg h1]

theorem bump_comm (f : Nat → Nat) (a b : Nat) :
    upd (upd f a (szInc (f a))) b (szInc (upd f a (szInc (f a)) b)) =
      upd (upd f b (szInc (f b))) a (szInc (upd f b (szInc (f b)) a)) := by
  by_cases h : a = b
  · subst h; rfl
  · have h1 : upd f a (szInc (f a)) b = f b := by simp [upd, Ne.symm h]
    have h2 : upd f b (szInc (f b)) a = f a := by simp [upd, h]
    rw [h1, h2, upd_swap' f h]

theorem afterResult_queue (cfg : HConfig) (w : Worker) (o : Upshot) (s : HState Multi) :
    (afterResult cfg w o s).queue = s.queue ∨
      (afterResult cfg w o s).queue = s.queue.advance w := by
  cases o
  · exact .inl rfl
  · exact .inl rfl
  · exact .inr rfl
  · exact .inr rfl

theorem afterResult_workers (cfg : HConfig) (w : Worker) (o : Upshot) (s : HState Multi) :
    (afterResult cfg w o s).workers = s.workers := by cases o <;> rfl

theorem afterResult_other (cfg : HConfig) {w x : Worker} (o : Upshot) (s : HState Multi)
    (h : x.addr ≠ w.addr) :
    (afterResult cfg w o s).queue.queues.getD x [] = s.queue.queues.getD x [] ∧
      (afterResult cfg w o s).queue.current.getD x none = s.queue.current.getD x none := by
  rcases afterResult_queue cfg w o s with e | e
  · rw [e]; exact ⟨rfl, rfl⟩
  · rw [e]; exact ⟨WMap.getD_put_away h, WMap.getD_put_away h⟩

/-- The state without the messages sent. -/
def HState.quiet (s : HState Multi) : HState Multi := { s with outs := [] }

theorem afterResult_comm (cfg : HConfig) {w x : Worker} (o o' : Upshot) {s : HState Multi}
    (h : x.addr ≠ w.addr) (hw : s.queue.Has w) (hx : s.queue.Has x) :
    (afterResult cfg x o' (afterResult cfg w o s)).quiet =
      (afterResult cfg w o (afterResult cfg x o' s)).quiet := by
  cases o <;> cases o' <;>
    simp only [afterResult, HState.quiet, Upshot.effect, HState.hear,
      upd_swap s.live w.addr x.addr, WMap.reset_comm w.addr x.addr, Multi.advance_comm hw hx h]
  rw [bump_comm]

/-- What is sent because of a final result, how it ends and the state afterwards. -/
def resultOf (cfg : HConfig) (m : Msg) (s : HState Multi) : List Msg × Option Err × HState Multi :=
  match regFind m.identity s.workers with
  | none => ([], none, s.quiet)
  | some w =>
    let o := upshot (s.queue.current.getD w none) m.data
    (o.says w (s.queue.queues.getD w []), o.err, afterResult cfg w o s)

theorem resultOf_quiet (cfg : HConfig) (m : Msg) (s : HState Multi) :
    resultOf cfg m s.quiet = resultOf cfg m s := by
  unfold resultOf
  rw [show s.quiet.workers = s.workers from rfl]
  cases regFind m.identity s.workers with
  | none => rfl
  | some w =>
    simp only
    rw [show s.quiet.queue = s.queue from rfl]
    cases upshot (s.queue.current.getD w none) m.data <;> rfl

theorem transcript_result {cfg : HConfig} {env : Env} {m : Msg} (hm : Final m) {s : HState Multi}
    (hi : HInv s) (ht : s.rs.Timed) (ms : List Msg) :
    transcript cfg env s (m :: ms) = ((resultOf cfg m s).1, (resultOf cfg m s).2.1) ::
      (if (resultOf cfg m s).2.1 = none then transcript cfg env (resultOf cfg m s).2.2 ms else []) ∧
    ((resultOf cfg m s).2.1 = none → step cfg env m s = .ok () (resultOf cfg m s).2.2) := by
  have h := result_step (cfg := cfg) (env := env) hm hi ht
  unfold resultOf
  cases hf : regFind m.identity s.workers with
  | none =>
    rw [hf] at h
    simp only at h ⊢
    simp only [transcript, h, if_true]
    exact ⟨rfl, fun _ => rfl⟩
  | some w =>
    rw [hf] at h
    simp only at h ⊢
    cases ho : upshot (s.queue.current.getD w none) m.data with
    | idle =>
      rw [ho] at h
      simp only [transcript, h, Upshot.err]
      exact ⟨rfl, fun h => by cases h⟩
    | ignored =>
      rw [ho] at h
      simp only [transcript, h, Upshot.err]
      exact ⟨rfl, fun _ => trivial⟩
    | good j =>
      rw [ho] at h
      simp only [transcript, h, Upshot.err]
      exact ⟨rfl, fun _ => trivial⟩
    | bad r j t =>
      rw [ho] at h
      simp only [transcript, h, Upshot.err]
      exact ⟨rfl, fun _ => trivial⟩

/-- The answer to a result does not depend on results of others, nor does the state in the end. -/
theorem result_other (cfg : HConfig) {m p : Msg} (hmp : m.identity ≠ p.identity) {s : HState Multi}
    (hi : HInv s) :
    (resultOf cfg m (resultOf cfg p s).2.2).1 = (resultOf cfg m s).1 ∧
    (resultOf cfg m (resultOf cfg p s).2.2).2.1 = (resultOf cfg m s).2.1 ∧
    (resultOf cfg m (resultOf cfg p s).2.2).2.2.quiet =
      (resultOf cfg p (resultOf cfg m s).2.2).2.2.quiet := by
  have hid : ∀ {i : String} {w : Worker}, regFind i s.workers = some w → w.identity = i := by
    intro i w h
    have := List.find?_some h
    simpa using this
  cases hm : regFind m.identity s.workers with
  | none =>
    have e : resultOf cfg m s = ([], none, s.quiet) := by unfold resultOf; rw [hm]
    cases hp : regFind p.identity s.workers with
    | none =>
      have e' : resultOf cfg p s = ([], none, s.quiet) := by unfold resultOf; rw [hp]
      rw [e, e']
      simp only [resultOf_quiet, e, e']
      exact ⟨trivial, trivial, trivial⟩
    | some x =>
      have e1 : resultOf cfg m (resultOf cfg p s).2.2 = ([], none, (resultOf cfg p s).2.2.quiet) := by
        unfold resultOf
        rw [hp]
        simp only [afterResult_workers, hm]
      have e2 := resultOf_quiet cfg p s
      rw [e, e1]
      simp only [e2]
      exact ⟨trivial, trivial, rfl⟩
  | some w =>
    cases hp : regFind p.identity s.workers with
    | none =>
      have e' : resultOf cfg p s = ([], none, s.quiet) := by unfold resultOf; rw [hp]
      have e1 : resultOf cfg p (resultOf cfg m s).2.2 = ([], none, (resultOf cfg m s).2.2.quiet) := by
        unfold resultOf
        rw [hm]
        simp only [afterResult_workers, hp]
      have e2 := resultOf_quiet cfg m s
      rw [e', e1]
      simp only [e2]
      exact ⟨trivial, trivial, rfl⟩
    | some x =>
      have hw : w ∈ s.workers := List.mem_of_find?_eq_some hm
      have hx : x ∈ s.workers := List.mem_of_find?_eq_some hp
      have hne : w.addr ≠ x.addr := by
        intro h
        have := List.inj_on_of_nodup_map hi.addr_nodup hw hx h
        exact hmp (by rw [← hid hm, ← hid hp, this])
      obtain ⟨q1, q2⟩ := afterResult_other cfg
        (upshot (s.queue.current.getD x none) p.data) s hne
      obtain ⟨q3, q4⟩ := afterResult_other cfg
        (upshot (s.queue.current.getD w none) m.data) s hne.symm
      have e1 : resultOf cfg m (resultOf cfg p s).2.2 =
          ((resultOf cfg m s).1, (resultOf cfg m s).2.1,
            afterResult cfg w (upshot (s.queue.current.getD w none) m.data)
              (afterResult cfg x (upshot (s.queue.current.getD x none) p.data) s)) := by
        unfold resultOf
        simp only [hm, hp, afterResult_workers, q1, q2]
      have e2 : (resultOf cfg p (resultOf cfg m s).2.2).2.2 =
            afterResult cfg x (upshot (s.queue.current.getD x none) p.data)
              (afterResult cfg w (upshot (s.queue.current.getD w none) m.data) s) := by
        unfold resultOf
        simp only [hm, hp, afterResult_workers, q3, q4]
      rw [e1, e2]
      exact ⟨rfl, rfl, afterResult_comm cfg _ _ hne (hi.has hx) (hi.has hw)⟩

theorem quiet_transcript {cfg : HConfig} {env : Env} {s t : HState Multi} (h : s.quiet = t.quiet)
    (ms : List Msg) : transcript cfg env s ms = transcript cfg env t ms := transcript_outs h ms

/-- Each result is answered as if it were the only one. -/
theorem results_line {cfg : HConfig} {env : Env} : ∀ {l : List Msg} {h : List (Tr Multi)}
    {s : HState Multi}, Run cfg env h s → (∀ m ∈ l, Final m) →
    (l.map (·.identity)).Nodup → (∀ m ∈ l, (resultOf cfg m s).2.1 = none) → ∀ ms, ∃ rest,
      transcript cfg env s (l ++ ms) = l.map (fun m => ((resultOf cfg m s).1, none)) ++ rest
  | [], _, s, _, _, _, _, ms => ⟨transcript cfg env s ms, rfl⟩
  | m :: l, h, s, hr, hf, hn, hok, ms => by
    obtain ⟨t1, t2⟩ := transcript_result (cfg := cfg) (env := env) (hf m (by simp)) hr.inv.1 hr.timed
      (l ++ ms)
    have ho := hok m (by simp)
    simp only [List.map_cons, List.nodup_cons] at hn
    have hne : ∀ x ∈ l, x.identity ≠ m.identity :=
      fun x hx e => hn.1 (List.mem_map.2 ⟨x, hx, e⟩)
    have hother : ∀ x ∈ l, (resultOf cfg x (resultOf cfg m s).2.2).1 = (resultOf cfg x s).1 ∧
        (resultOf cfg x (resultOf cfg m s).2.2).2.1 = (resultOf cfg x s).2.1 := fun x hx =>
      have := result_other cfg (hne x hx) hr.inv.1
      ⟨this.1, this.2.1⟩
    obtain ⟨rest, r1⟩ := results_line (hr.snoc (t2 ho)) (fun x hx => hf x (by simp [hx])) hn.2
      (fun x hx => (hother x hx).2.trans (hok x (by simp [hx]))) ms
    refine ⟨rest, ?_⟩
    rw [List.cons_append, t1, if_pos ho, r1, ho, List.map_cons, List.cons_append]
    congr 2
    exact List.map_congr_left fun x hx => by rw [(hother x hx).1]

/-- Results of different workers in any order. -/
theorem results_perm {cfg : HConfig} {env : Env} {l l' : List Msg} (hl : l.Perm l') :
    ∀ {h : List (Tr Multi)} {s : HState Multi}, Run cfg env h s → (∀ m ∈ l, Final m) →
    (l.map (·.identity)).Nodup → (∀ m ∈ l, (resultOf cfg m s).2.1 = none) → ∀ ms, ∃ rest,
      transcript cfg env s (l ++ ms) = l.map (fun m => ((resultOf cfg m s).1, none)) ++ rest ∧
      transcript cfg env s (l' ++ ms) = l'.map (fun m => ((resultOf cfg m s).1, none)) ++ rest := by
  induction hl with
  | nil => intro h s hr _ _ _ ms; exact ⟨transcript cfg env s ms, rfl, rfl⟩
  | @cons m l l' hp ih =>
    intro h s hr hf hn hok ms
    obtain ⟨t1, t2⟩ := transcript_result (cfg := cfg) (env := env) (hf m (by simp)) hr.inv.1 hr.timed
      (l ++ ms)
    obtain ⟨t1', -⟩ := transcript_result (cfg := cfg) (env := env) (hf m (by simp)) hr.inv.1 hr.timed
      (l' ++ ms)
    have ho := hok m (by simp)
    simp only [List.map_cons, List.nodup_cons] at hn
    have hne : ∀ x ∈ l, x.identity ≠ m.identity :=
      fun x hx e => hn.1 (List.mem_map.2 ⟨x, hx, e⟩)
    have hother : ∀ x ∈ l, (resultOf cfg x (resultOf cfg m s).2.2).1 = (resultOf cfg x s).1 ∧
        (resultOf cfg x (resultOf cfg m s).2.2).2.1 = (resultOf cfg x s).2.1 := fun x hx =>
      have := result_other cfg (hne x hx) hr.inv.1
      ⟨this.1, this.2.1⟩
    obtain ⟨rest, r1, r2⟩ := ih (hr.snoc (t2 ho)) (fun x hx => hf x (by simp [hx])) hn.2
      (fun x hx => (hother x hx).2.trans (hok x (by simp [hx]))) ms
    refine ⟨rest, ?_, ?_⟩
    · rw [List.cons_append, t1, if_pos ho, r1, ho, List.map_cons, List.cons_append]
      congr 2
      exact List.map_congr_left fun x hx => by rw [(hother x hx).1]
    · rw [List.cons_append, t1', if_pos ho, r2, ho, List.map_cons, List.cons_append]
      congr 2
      exact List.map_congr_left fun x hx => by rw [(hother x (hp.mem_iff.2 hx)).1]
  | @swap m p l =>
    intro h s hr hf hn hok ms
    simp only [List.map_cons, List.nodup_cons, List.mem_cons, not_or] at hn
    have hne : p.identity ≠ m.identity := hn.1.1
    have op := hok p (by simp)
    have om := hok m (by simp)
    obtain ⟨m1, m2, m3⟩ := result_other cfg hne hr.inv.1
    obtain ⟨p1, p2, _⟩ := result_other cfg hne.symm hr.inv.1
    obtain ⟨rest, r⟩ := results_line hr hf (by simpa [not_or] using hn) hok ms
    obtain ⟨a1, a2⟩ := transcript_result (cfg := cfg) (env := env) (hf p (by simp)) hr.inv.1
      hr.timed (m :: (l ++ ms))
    obtain ⟨b1, b2⟩ := transcript_result (cfg := cfg) (env := env) (hf m (by simp)) hr.inv.1
      hr.timed (p :: (l ++ ms))
    have ra := hr.snoc (a2 op)
    have rb := hr.snoc (b2 om)
    obtain ⟨a3, -⟩ := transcript_result (cfg := cfg) (env := env) (hf m (by simp)) ra.inv.1
      ra.timed (l ++ ms)
    obtain ⟨b3, -⟩ := transcript_result (cfg := cfg) (env := env) (hf p (by simp)) rb.inv.1
      rb.timed (l ++ ms)
    rw [if_pos op, a3, p1, p2, om, if_pos rfl, op] at a1
    rw [if_pos om, b3, m1, m2, op, if_pos rfl, om, quiet_transcript m3] at b1
    refine ⟨rest, r, ?_⟩
    simp only [List.cons_append, List.map_cons] at r ⊢
    rw [a1] at r
    simp only [List.cons.injEq, true_and] at r
    rw [b1, r]
  | trans h1 h2 ih1 ih2 =>
    intro h s hr hf hn hok ms
    obtain ⟨r1, a1, a2⟩ := ih1 hr hf hn hok ms
    obtain ⟨r2, b1, b2⟩ := ih2 hr (fun x hx => hf x (h1.mem_iff.2 hx))
      ((h1.map _).nodup_iff.1 hn) (fun x hx => hok x (h1.mem_iff.2 hx)) ms
    refine ⟨r1, a1, ?_⟩
    rw [a2] at b1
    rw [b2, List.append_cancel_left b1]

end Broker
