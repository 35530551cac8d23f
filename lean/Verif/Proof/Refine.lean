import Verif.Proof.Wp
import Verif.Proof.Life

/-!
# The handler refines the life-cycle machine
-/

set_option linter.unusedSectionVars false
set_option linter.unusedSimpArgs false

namespace Broker

open QueueManager LawfulQM

variable {Q : Type} [QueueManager Q] [LawfulQM Q]

/-- Machine state of a handler state. -/
def ls (s : HState Q) (hand : Multiset Req) : LS :=
  { reg := reg s.queue, busy := busy s.queue, que := que s.queue, hand := hand, fc := s.fc,
    nextRid := s.nextRid }

/-- Invariant of the handler. -/
structure HInv (s : HState Q) : Prop where
  qinv : LawfulQM.Inv s.queue
  reg_eq : (s.workers : Multiset Worker) = reg s.queue
  busyCan : ∀ p ∈ busy s.queue, p.1.Can p.2.headers

theorem HInv.mem_reg {s : HState Q} (h : HInv s) {w : Worker} :
    w ∈ s.workers ↔ w ∈ reg s.queue := by
  rw [← h.reg_eq]; simp

theorem HInv.wf {s : HState Q} (h : HInv s) {w : Worker} (hw : w ∈ s.workers) : w.WF :=
  reg_wf h.qinv w (h.mem_reg.1 hw)

theorem HInv.busy_safe {s : HState Q} (h : HInv s) {w : Worker} {r : Req}
    (hb : (w, r) ∈ busy s.queue) : SafeHeaders r.headers :=
  safe_of_can (reg_wf h.qinv w (busy_reg h.qinv _ hb)) (h.busyCan _ hb)

theorem HInv.que_safe {s : HState Q} (h : HInv s) {r : Req}
    (hr : r ∈ que s.queue) : SafeHeaders r.headers := by
  obtain ⟨w, hw, hc⟩ := que_can h.qinv r hr
  exact safe_of_can (reg_wf h.qinv w hw) hc

/-- The handler went from `s0` to `s` by these events. -/
structure Sim (M : Nat) (s0 : HState Q) (hand0 : Multiset Req) (evs : List Ev) (s : HState Q)
    (hand : Multiset Req) : Prop where
  inv : HInv s
  steps : LSteps M (ls s0 hand0) evs (ls s hand)
  outs : s.outs = s0.outs ++ msgsOf evs

theorem Sim.refl {M : Nat} {s : HState Q} {hand : Multiset Req} (h : HInv s) :
    Sim M s hand [] s hand := ⟨h, .nil _, by simp⟩

theorem Sim.trans {M : Nat} {s0 s1 s2 : HState Q} {h0 h1 h2 : Multiset Req} {a b : List Ev}
    (x : Sim M s0 h0 a s1 h1) (y : Sim M s1 h1 b s2 h2) : Sim M s0 h0 (a ++ b) s2 h2 :=
  ⟨y.inv, x.steps.append y.steps, by rw [y.outs, x.outs]; simp⟩

/-- The parts of the state queue operations and messages leave alone. -/
structure Frame (s s' : HState Q) : Prop where
  workers : s'.workers = s.workers
  timers : s'.timers = s.timers
  live : s'.live = s.live
  stats : s'.stats = s.stats
  frozen : s'.frozen = s.frozen
  allocs : s'.allocs = s.allocs

theorem Frame.refl (s : HState Q) : Frame s s := ⟨rfl, rfl, rfl, rfl, rfl, rfl⟩

theorem Frame.trans {a b c : HState Q} (h1 : Frame a b) (h2 : Frame b c) : Frame a c :=
  ⟨h2.workers.trans h1.workers, h2.timers.trans h1.timers, h2.live.trans h1.live,
    h2.stats.trans h1.stats, h2.frozen.trans h1.frozen, h2.allocs.trans h1.allocs⟩

/-- Two states with the same machine state. -/
theorem HInv.of_eq {s s' : HState Q} (h : HInv s) (hq : s'.queue = s.queue)
    (hw : s'.workers = s.workers) : HInv s' :=
  ⟨by rw [hq]; exact h.qinv, by rw [hq, hw]; exact h.reg_eq, by rw [hq]; exact h.busyCan⟩

theorem sim_say {M : Nat} {s : HState Q} {hand : Multiset Req} (h : HInv s) (m : Msg) :
    Sim M s hand [.say m] { s with outs := s.outs ++ [m] } hand :=
  ⟨h.of_eq rfl rfl, .single (.say _ _), by simp [Ev.msgs]⟩

/-- No abnormal outcome. -/
abbrev NoErr : Err → HState Q → Prop := fun _ _ => False

/-! ## Queue operations -/

theorem Frame.queue {s : HState Q} {q : Q} : Frame s { s with queue := q } :=
  ⟨rfl, rfl, rfl, rfl, rfl, rfl⟩

theorem wp_qCurrent {s : HState Q} {w : Worker} (h : HInv s) (hw : w ∈ s.workers)
    {R : Option Req → HState Q → Prop} {E}
    (hnone : (∀ r, (w, r) ∉ busy s.queue) → R none s)
    (hsome : ∀ r, (w, r) ∈ busy s.queue → R (some r) s) :
    wp (qCurrent w) s R E := by
  obtain ⟨h1, h2⟩ := LawfulQM.current h.qinv (h.mem_reg.1 hw)
  simp only [qCurrent, wp_bind, wp_get, wp_modify, wp_pure, h1]
  cases hc : (currentRequest s.queue w).1 with
  | none =>
    refine hnone fun r hr => ?_
    have := (h2 r).2 hr
    rw [hc] at this; cases this
  | some r => exact hsome r ((h2 r).1 hc)

/-- The failure counts may be used to tell that requests in the queue are alive; queue operations do
    not change them. -/
theorem wp_qAssign_send {M : Nat} {env : Env} {s : HState Q} {hand : Multiset Req} {w : Worker}
    (h : HInv s) (hw : w ∈ s.workers) (hidle : ∀ r, (w, r) ∉ busy s.queue) :
    wp (qAssign env w >>= sendIfSome w) s
      (fun _ s' => Frame s s' ∧ ∃ evs, Sim M s hand evs s' hand ∧
        (evs = [] ∨ ∃ r, evs = [.pull w r])) NoErr := by
  obtain ⟨o, q', h1, h2, h3, h4⟩ := LawfulQM.assign env.srt h.qinv (h.mem_reg.1 hw) hidle
  simp only [qAssign, wp_bind, wp_get, wp_liftE, h1, wp_modify, wp_pure]
  rcases h4 with ⟨rfl, hb, hq⟩ | ⟨r, rfl, hcan, hq, hb⟩
  · simp only [sendIfSome, wp_pure]
    refine ⟨Frame.queue, [], ⟨⟨h2, ?_, ?_⟩, ?_, by simp⟩, Or.inl rfl⟩
    · rw [h3]; exact h.reg_eq
    · rw [hb]; exact h.busyCan
    · have : ls { s with queue := q' } hand = ls s hand := by simp [ls, h3, hb, hq]
      rw [this]; exact .nil _
  · simp only [sendIfSome, sendRequest, wp_respond]
    refine ⟨⟨rfl, rfl, rfl, rfl, rfl, rfl⟩, [.pull w r], ⟨⟨h2, ?_, ?_⟩, ?_, ?_⟩, Or.inr ⟨r, rfl⟩⟩
    · show (s.workers : Multiset Worker) = reg q'
      rw [h3]; exact h.reg_eq
    · show ∀ p ∈ busy q', p.1.Can p.2.headers
      rw [hb]; intro p hp
      rcases Multiset.mem_cons.1 hp with rfl | hp
      · exact hcan
      · exact h.busyCan p hp
    · refine .single ?_
      have := LStep.pull (M := M) (ls s hand) w r (que q') hq (h.mem_reg.1 hw) hidle hcan
      simpa [ls, h3, hb] using this
    · simp [Ev.msgs, sendMsg]

/-- Giving a request in hand to the queue manager. -/
theorem wp_reassign {M : Nat} {env : Env} {s : HState Q} {hand : Multiset Req} {r : Req}
    (h : HInv s) (hsafe : SafeHeaders r.headers) (hcomp : r.complete = true)
    (hfc : Alive M s.fc r) :
    wp (reassignRequest env r) s
      (fun b s' => Frame s s' ∧ s'.fc = s.fc ∧
        ((b = true ∧ ∃ evs, Sim M s (r ::ₘ hand) evs s' hand ∧
            ((∃ w, evs = [.send w r]) ∨ evs = [.park r])) ∨
         (b = false ∧ Sim M s (r ::ₘ hand) [.say (monMsg r.jobId "FAILED")] s' (r ::ₘ hand) ∧
            Hopeless (reg s.queue) r))) NoErr := by
  simp only [reassignRequest, qEnqueue, wp_bind, wp_get, wp_liftE, wp_modify, wp_pure]
  cases heq : enqueueRequest s.queue (env.clock s.clockReads) r with
  | error e =>
    obtain ⟨w, hw, he⟩ := LawfulQM.enqueue_error _ h.qinv heq
    obtain ⟨b, hb⟩ := hsafe w (reg_wf h.qinv w hw)
    rw [hb] at he; cases he
  | ok p =>
    obtain ⟨res, q'⟩ := p
    obtain ⟨h2, h3, h4⟩ := LawfulQM.enqueue _ h.qinv heq
    have hinv : (∀ p ∈ busy q', p.1.Can p.2.headers) →
        ∀ l c, HInv { s with queue := q', clockReads := c, outs := l } :=
      fun hb l c => ⟨h2, by
        show (s.workers : Multiset Worker) = reg q'
        rw [h3]; exact h.reg_eq, hb⟩
    rcases h4 with ⟨w, rfl, hw, hidle, hcan, hb, hq⟩ | ⟨rfl, hcan, hb, hq⟩ | ⟨rfl, hno, hb, hq⟩
    · simp only [if_true, wp_bind, sendRequest, wp_respond, wp_pure]
      refine ⟨⟨rfl, rfl, rfl, rfl, rfl, rfl⟩, by trivial, Or.inl ⟨by trivial, [.send w r], ⟨?_, ?_, ?_⟩,
        Or.inl ⟨w, rfl⟩⟩⟩
      · refine hinv ?_ _ _
        rw [hb]; intro p hp
        rcases Multiset.mem_cons.1 hp with rfl | hp
        · exact hcan
        · exact h.busyCan p hp
      · refine .single ?_
        have := LStep.send (M := M) (ls s (r ::ₘ hand)) w r hand rfl hw hidle hcan hcomp hfc
        simpa [ls, h3, hb, hq] using this
      · simp [Ev.msgs, sendMsg]
    · simp only [if_true, wp_pure]
      refine ⟨⟨rfl, rfl, rfl, rfl, rfl, rfl⟩, by trivial, Or.inl ⟨by trivial, [.park r], ⟨?_, ?_, ?_⟩,
        Or.inr rfl⟩⟩
      · refine hinv ?_ _ _
        rw [hb]; exact h.busyCan
      · refine .single ?_
        have := LStep.park (M := M) (ls s (r ::ₘ hand)) r hand rfl hcan hcomp hfc
        simpa [ls, h3, hb, hq] using this
      · simp [Ev.msgs]
    · simp only [Bool.false_eq_true, if_false, wp_bind, notifyMonitor, wp_respond, wp_pure]
      refine ⟨⟨rfl, rfl, rfl, rfl, rfl, rfl⟩, by trivial, Or.inr ⟨by trivial, ⟨?_, ?_, ?_⟩, hno⟩⟩
      · refine hinv ?_ _ _
        rw [hb]; exact h.busyCan
      · refine .single ?_
        have : ls { s with queue := q', clockReads := s.clockReads + 1, outs := s.outs ++
          [⟨keyMonitor, monitorIdentity, [r.jobId, "FAILED"]⟩] } (r ::ₘ hand) =
            ls s (r ::ₘ hand) := by simp [ls, h3, hb, hq]
        rw [this]; exact .say _ _
      · simp [Ev.msgs, monMsg]

/-- Checking the failure count of a request in hand. -/
theorem wp_checkFailureCount {cfg : HConfig} {s : HState Q} {hand : Multiset Req} {r : Req}
    {text : String} (h : HInv s) :
    wp (checkFailureCount cfg r text) s
      (fun b s' => Frame s s' ∧ s'.fc = s.fc ∧ s'.queue = s.queue ∧
        ((b = true ∧ s' = s ∧ s.fc r.rid < cfg.maxFailures) ∨
         (b = false ∧ cfg.maxFailures ≤ s.fc r.rid ∧
          Sim cfg.maxFailures s (r ::ₘ hand)
            [.giveUp r (tooManyMsg (s.fc r.rid) text), .say (monMsg r.jobId "FAILED")] s' hand)))
      NoErr := by
  simp only [checkFailureCount, wp_bind, wp_get]
  by_cases hf : s.fc r.rid ≥ cfg.maxFailures
  · simp only [hf, if_true, wp_bind, notifyFailed, notifyMonitor, wp_respond, wp_pure]
    refine ⟨⟨rfl, rfl, rfl, rfl, rfl, rfl⟩, by trivial, by trivial, Or.inr ⟨by trivial, by trivial, h.of_eq rfl rfl, ?_, ?_⟩⟩
    · refine .cons (L' := ls s hand) ?_ (.single (.say _ _))
      exact LStep.giveUp (ls s (r ::ₘ hand)) r _ hand rfl (Or.inr (Or.inl hf))
    · simp [Ev.msgs, failMsg, monMsg]
  · simp only [hf, if_false, wp_pure]
    exact ⟨Frame.refl s, by trivial, by trivial, Or.inl ⟨by trivial, by trivial, by omega⟩⟩

/-! ## Client commands -/

/-- Events of a well-formed submission. -/
inductive SubmitScript (n : Nat) (ws : List Worker) (identity jobId : String) (hs : Headers)
    (md : Metadata) (extra : List String) : List Ev → Prop
  | reject (hno : ∀ w ∈ ws, w.checkHeaders hs = .ok false) :
    SubmitScript n ws identity jobId hs md extra
      [.drop, .say ⟨keyClients, identity, ["reject", rejectMessage hs]⟩,
        .say (monMsg jobId "FAILED")]
  | give (w : Worker) : SubmitScript n ws identity jobId hs md extra
      [.accept (Req.full n hs md jobId extra), .send w (Req.full n hs md jobId extra),
        .say ⟨keyClients, identity, ["accept"]⟩]
  | wait : SubmitScript n ws identity jobId hs md extra
      [.accept (Req.full n hs md jobId extra), .park (Req.full n hs md jobId extra),
        .say ⟨keyClients, identity, ["accept"]⟩]

theorem wp_submit {M : Nat} {env : Env} {s : HState Q} {hand : Multiset Req}
    {identity jobId : String} {hs : Headers} {md : Metadata} {extra : List String} (h : HInv s) :
    wp (submit env identity jobId hs md extra) s
      (fun _ s' => Frame s s' ∧ ∃ evs, Sim M s hand evs s' hand ∧
        SubmitScript s.nextRid s.workers identity jobId hs md extra evs)
      (fun e _ => ∃ w ∈ s.workers, ∃ x, e = .exn x ∧ w.checkHeaders hs = .error x) := by
  simp only [submit, qEnqueue, wp_bind, wp_get, wp_set, wp_liftE, wp_modify, wp_pure]
  generalize hr : Req.full s.nextRid hs md jobId extra = r
  have hrid : r.rid = s.nextRid := by rw [← hr]; rfl
  have hcomp : r.complete = true := by rw [← hr]; rfl
  have hhs : r.headers = hs := by rw [← hr]; rfl
  have halive : Alive M (upd s.fc s.nextRid 0) r := Or.inl (by simp [upd, hrid])
  cases heq : enqueueRequest s.queue (env.clock s.clockReads) r with
  | error e =>
    obtain ⟨w, hw, he⟩ := LawfulQM.enqueue_error _ h.qinv heq
    exact ⟨w, h.mem_reg.2 hw, e, rfl, by rw [← hhs]; exact he⟩
  | ok p =>
    obtain ⟨res, q'⟩ := p
    obtain ⟨h2, h3, h4⟩ := LawfulQM.enqueue _ h.qinv heq
    have hreg : (s.workers : Multiset Worker) = reg q' := by rw [h3]; exact h.reg_eq
    rcases h4 with ⟨w, rfl, hw, hidle, hcan, hb, hq⟩ | ⟨rfl, hcan, hb, hq⟩ | ⟨rfl, hno, hb, hq⟩
    · simp only [if_true, wp_bind, sendRequest, wp_respond]
      refine ⟨⟨rfl, rfl, rfl, rfl, rfl, rfl⟩, _, ⟨⟨h2, hreg, ?_⟩, ?_, ?_⟩,
        hr ▸ SubmitScript.give w⟩
      · show ∀ p ∈ busy q', p.1.Can p.2.headers
        rw [hb]; intro p hp
        rcases Multiset.mem_cons.1 hp with rfl | hp
        · exact hcan
        · exact h.busyCan p hp
      · refine .cons (LStep.accept (ls s hand) r hrid hcomp ⟨w, hw, hcan⟩) ?_
        refine .cons (LStep.send _ w r hand rfl hw hidle hcan hcomp halive) ?_
        refine .single ?_
        have := LStep.say (M := M) { ls s hand with
          busy := (w, r) ::ₘ busy s.queue, nextRid := s.nextRid + 1,
          fc := upd s.fc s.nextRid 0 } ⟨keyClients, identity, ["accept"]⟩
        simpa [ls, h3, hb, hq] using this
      · simp [Ev.msgs, sendMsg, hr]
    · simp only [if_true, wp_bind, wp_respond, wp_pure]
      refine ⟨⟨rfl, rfl, rfl, rfl, rfl, rfl⟩, _, ⟨⟨h2, hreg, ?_⟩, ?_, ?_⟩,
        hr ▸ SubmitScript.wait⟩
      · show ∀ p ∈ busy q', p.1.Can p.2.headers
        rw [hb]; exact h.busyCan
      · refine .cons (LStep.accept (ls s hand) r hrid hcomp hcan) ?_
        refine .cons (LStep.park _ r hand rfl hcan hcomp halive) ?_
        refine .single ?_
        have := LStep.say (M := M) { ls s hand with
          que := r ::ₘ que s.queue, nextRid := s.nextRid + 1,
          fc := upd s.fc s.nextRid 0 } ⟨keyClients, identity, ["accept"]⟩
        simpa [ls, h3, hb, hq] using this
      · simp [Ev.msgs]
    · simp only [Bool.false_eq_true, if_false, wp_bind, notifyMonitor, wp_respond]
      refine ⟨⟨rfl, rfl, rfl, rfl, rfl, rfl⟩, _, ⟨⟨h2, hreg, ?_⟩, ?_, ?_⟩,
        SubmitScript.reject (fun w hw => by rw [← hhs]; exact hno w (h.mem_reg.1 hw))⟩
      · show ∀ p ∈ busy q', p.1.Can p.2.headers
        rw [hb]; exact h.busyCan
      · refine .cons (LStep.drop (ls s hand)) (.cons (LStep.say _ _) (.single ?_))
        have := LStep.say (M := M) { ls s hand with
          nextRid := s.nextRid + 1,
          fc := upd s.fc s.nextRid 0 } (monMsg jobId "FAILED")
        simpa [ls, h3, hb, hq] using this
      · simp [Ev.msgs, monMsg]

/-- Events of an `eval` command. -/
inductive EvalScript (s s' : HState Q) (identity : String) (message : List String) :
    List Ev → Prop
  | malformed (h : ∃ j rest, message = "eval" :: j :: rest ∧ evalHeaders rest [] [] = .ok none)
      (hs : s' = { s with outs := s'.outs }) :
    EvalScript s s' identity message [.say ⟨keyClients, identity, ["ack"]⟩]
  | frozen (hf : s.frozen = true) (h : ∃ j rest x, message = "eval" :: j :: rest ∧
      evalHeaders rest [] [] = .ok (some x)) (hs : s' = { s with outs := s'.outs }) :
    EvalScript s s' identity message [.say ⟨keyClients, identity, ["ack"]⟩,
      .say ⟨keyClients, identity, ["reject", "The broker is frozen."]⟩]
  | submit (hf : s.frozen = false) {j : String} {rest : List String} {hs : Headers} {md : Metadata}
      {extra : List String} (hm : message = "eval" :: j :: rest)
      (hp : evalHeaders rest [] [] = .ok (some (hs, md, extra))) {evs : List Ev}
      (h : SubmitScript s.nextRid s.workers identity j hs md extra evs) :
    EvalScript s s' identity message (.say ⟨keyClients, identity, ["ack"]⟩ :: evs)

/-- The abnormal outcomes of an `eval` command. -/
def EvalErr (s : HState Q) (message : List String) (e : Err) : Prop :=
  (message = ["eval"] ∧ e = .exn .outOfRange) ∨
  (∃ j, message = ["eval", j] ∧ e = .ub .pastEnd) ∨
  (s.frozen = false ∧ ∃ j rest hs md extra, message = "eval" :: j :: rest ∧
    evalHeaders rest [] [] = .ok (some (hs, md, extra)) ∧
    ∃ w ∈ s.workers, ∃ x, e = .exn x ∧ w.checkHeaders hs = .error x)

omit [LawfulQM Q] [QueueManager Q] in
theorem evalHeaders_error {u : UB} : ∀ {l : List String} {hs : Headers} {md : Metadata},
    evalHeaders l hs md = .error u → l = [] ∧ u = .pastEnd := by
  intro l
  induction l with
  | nil => intro hs md h; simp [evalHeaders] at h; exact ⟨rfl, h.symm⟩
  | cons f t ih =>
    intro hs md h
    simp only [evalHeaders] at h
    split at h
    · cases h
    · split at h
      · cases h
      · split at h
        · have := (ih h).1; simp at this
        · have := (ih h).1; simp at this

theorem wp_processEval {M : Nat} {env : Env} {s : HState Q} {hand : Multiset Req}
    {identity : String} {args : List String} (h : HInv s) :
    wp (processEval env identity ("eval" :: args)) s
      (fun _ s' => Frame s s' ∧ ∃ evs, Sim M s hand evs s' hand ∧
        EvalScript s s' identity ("eval" :: args) evs)
      (fun e _ => EvalErr s ("eval" :: args) e) := by
  simp only [processEval, wp_bind, wp_respond]
  cases args with
  | nil => exact Or.inl ⟨rfl, rfl⟩
  | cons j rest =>
    simp only [List.getElem?_cons_succ, List.getElem?_cons_zero, List.drop_succ_cons,
      List.drop_zero]
    cases hp : evalHeaders rest [] [] with
    | error u =>
      obtain ⟨rfl, rfl⟩ := evalHeaders_error hp
      exact Or.inr (Or.inl ⟨j, rfl, rfl⟩)
    | ok o =>
      cases o with
      | none =>
        refine ⟨⟨rfl, rfl, rfl, rfl, rfl, rfl⟩, _, sim_say h _, .malformed ⟨j, rest, rfl, hp⟩ rfl⟩
      | some x =>
        obtain ⟨hs, md, extra⟩ := x
        simp only [wp_bind, wp_get]
        have hs1 : Sim M s hand [.say ⟨keyClients, identity, ["ack"]⟩] _ hand := sim_say h _
        by_cases hf : s.frozen = true
        · rw [if_pos hf]
          simp only [wp_respond]
          refine ⟨⟨rfl, rfl, rfl, rfl, rfl, rfl⟩, _, hs1.trans (sim_say hs1.inv _), ?_⟩
          exact .frozen hf ⟨j, rest, _, rfl, hp⟩ rfl
        · rw [if_neg hf]
          refine wp_mono (wp_submit (M := M) (hand := hand) hs1.inv) ?_ ?_
          · rintro _ s' ⟨hfr, evs, hsim, hscr⟩
            exact ⟨⟨hfr.workers, hfr.timers, hfr.live, hfr.stats, hfr.frozen, hfr.allocs⟩, _,
              hs1.trans hsim, .submit (by simpa using hf) rfl hp hscr⟩
          · rintro e s' ⟨w, hw, x, he, hx⟩
            exact Or.inr (Or.inr ⟨by simpa using hf, j, rest, hs, md, extra, rfl, hp, w, hw, x,
              he, hx⟩)

/-! ## Registration -/

/-- Events of a registration. -/
inductive RegScript (w : Worker) (cur : Option Req) : List Ev → Prop
  | plain : RegScript w cur [.register w cur]
  | pull (r : Req) (hc : cur = none) : RegScript w cur [.register w cur, .pull w r]
  | resend (r : Req) (hc : cur = some r) : RegScript w cur [.register w cur, .resend w r]

/-- The worker and request objects `process_worker_init` creates. -/
structure NewWorker (s : HState Q) (env : Env) (identity hwgroup : String) (hs : Headers)
    (extra : List String) (w : Worker) (cur : Option Req) : Prop where
  created : Worker.create (env.alloc s.allocs s.addrs) identity hwgroup hs
    (initExtra extra "" none).1 = .ok w
  cur_eq : cur = (initExtra extra "" none).2.map (Req.incomplete s.nextRid)

/-- The parts of the state a registration changes besides the queue. -/
structure RegFrame (s s' : HState Q) (w : Worker) : Prop where
  workers : s'.workers = s.workers ++ [w]
  timers : s'.timers = s.timers.emplace w 0
  live : s'.live = upd s.live w.addr 0
  stats : s'.stats = s.stats
  frozen : s'.frozen = s.frozen
  allocs : s'.allocs = s.allocs + 1

theorem wp_registerWorker {M : Nat} {env : Env} {s : HState Q} {hand : Multiset Req}
    {identity hwgroup : String} {hs : Headers} {extra : List String} (h : HInv s) :
    wp (registerWorker env identity hwgroup hs extra) s
      (fun _ s' => ∃ w cur evs, NewWorker s env identity hwgroup hs extra w cur ∧
        RegFrame s s' w ∧ Sim M s hand evs s' hand ∧ RegScript w cur evs)
      (fun e _ => ∃ x, e = .exn x ∧ Worker.create (env.alloc s.allocs s.addrs) identity hwgroup hs
        (initExtra extra "" none).1 = .error x) := by
  simp only [registerWorker, wp_bind, wp_get, wp_liftE]
  cases hc : Worker.create (env.alloc s.allocs s.addrs) identity hwgroup hs
      (initExtra extra "" none).1 with
  | error x => exact ⟨x, rfl, rfl⟩
  | ok w =>
    simp only [wp_set, qAddWorker, wp_bind, wp_get, wp_liftE]
    have hwf : w.WF := Worker.create_wf hc
    have haddr : w.addr = env.alloc s.allocs s.addrs := (Worker.create_fields hc).1
    have hfresh : w.addr ∉ (reg s.queue).map (·.addr) := by
      rw [← h.reg_eq, haddr]
      intro hm
      have hm : env.alloc s.allocs s.addrs ∈ s.workers.map (·.addr) := by simpa using hm
      exact env.alloc_fresh s.allocs s.addrs (List.mem_append_left _ hm)
    generalize hcur : (initExtra extra "" none).2.map (Req.incomplete s.nextRid) = cur
    obtain ⟨o, q', h1, h2, h3, h4⟩ := LawfulQM.add env.srt cur h.qinv hwf hfresh
    simp only [h1, wp_modify, wp_pure]
    have hreg : ((s.workers ++ [w] : List Worker) : Multiset Worker) = reg q' := by
      rw [h3, ← h.reg_eq]
      simp
    have hincomp : ∀ r, cur = some r → ∃ j, r = Req.incomplete s.nextRid j := by
      intro r hr
      rw [hr, Option.map_eq_some_iff] at hcur
      obtain ⟨j, -, hj⟩ := hcur
      exact ⟨j, hj.symm⟩
    have hstep := LStep.register (M := M) (ls s hand) w cur hwf hfresh hincomp
    cases cur with
    | some r =>
      obtain ⟨ho, hb, hq⟩ := h4
      obtain ⟨j, hj⟩ := hincomp r rfl
      have hbc : ∀ p ∈ busy q', p.1.Can p.2.headers := by
        rw [hb]; intro p hp
        rcases Multiset.mem_cons.1 hp with rfl | hp
        · rw [hj]; exact can_nil w
        · exact h.busyCan p hp
      rcases ho with rfl | rfl
      · simp only [wp_pure]
        refine ⟨w, some r, _, ⟨hc, hcur.symm⟩, ⟨rfl, rfl, ?_, rfl, rfl, rfl⟩,
          ⟨⟨h2, hreg, hbc⟩, ?_, ?_⟩, .plain⟩
        · simp [haddr]
        · refine .single ?_
          simpa [ls, h3, hb, hq] using hstep
        · simp [Ev.msgs]
      · simp only [sendRequest, wp_respond]
        refine ⟨w, some r, _, ⟨hc, hcur.symm⟩, ⟨rfl, rfl, ?_, rfl, rfl, rfl⟩,
          ⟨⟨h2, hreg, hbc⟩, ?_, ?_⟩, .resend r rfl⟩
        · simp [haddr]
        · refine .cons hstep (.single ?_)
          have := LStep.resend (M := M) { ls s hand with
            reg := w ::ₘ reg s.queue,
            busy := ((some r).map (fun r => (w, r))).toList + busy s.queue,
            nextRid := s.nextRid + 1, fc := upd s.fc s.nextRid 0 } w r (by simp)
            (by rw [hj]; rfl) (by rw [hj]; rfl)
          simpa [ls, h3, hb, hq] using this
        · simp [Ev.msgs, sendMsg]
    | none =>
      rcases h4 with ⟨rfl, hb, hq⟩ | ⟨r, rfl, hcan, hq, hb⟩
      · simp only [wp_pure]
        refine ⟨w, none, _, ⟨hc, hcur.symm⟩, ⟨rfl, rfl, ?_, rfl, rfl, rfl⟩,
          ⟨⟨h2, hreg, ?_⟩, ?_, ?_⟩, .plain⟩
        · simp [haddr]
        · show ∀ p ∈ busy q', p.1.Can p.2.headers
          rw [hb]; exact h.busyCan
        · refine .single ?_
          simpa [ls, h3, hb, hq] using hstep
        · simp [Ev.msgs]
      · simp only [sendRequest, wp_respond]
        refine ⟨w, none, _, ⟨hc, hcur.symm⟩, ⟨rfl, rfl, ?_, rfl, rfl, rfl⟩,
          ⟨⟨h2, hreg, ?_⟩, ?_, ?_⟩, .pull r rfl⟩
        · simp [haddr]
        · show ∀ p ∈ busy q', p.1.Can p.2.headers
          rw [hb]; intro p hp
          rcases Multiset.mem_cons.1 hp with rfl | hp
          · exact hcan
          · exact h.busyCan p hp
        · refine .cons hstep (.single ?_)
          have hidle : ∀ r', (w, r') ∉ busy s.queue := fun r' hr' =>
            hfresh (Multiset.mem_map.2 ⟨w, busy_reg h.qinv _ hr', rfl⟩)
          have := LStep.pull (M := M) { ls s hand with
            reg := w ::ₘ reg s.queue,
            busy := ((none : Option Req).map (fun r => (w, r))).toList + busy s.queue,
            nextRid := s.nextRid + 1, fc := upd s.fc s.nextRid 0 } w r (que q') hq (by simp)
            (by simpa [ls] using hidle) hcan
          simpa [ls, h3, hb, hq] using this
        · simp [Ev.msgs, sendMsg]

/-- Events of an `init` command. -/
inductive InitScript (s : HState Q) (env : Env) (identity : String) (message : List String)
    (s' : HState Q) : List Ev → Prop
  | short (h : message.length < 2) (hfr : s' = s) : InitScript s env identity message s' []
  | same (hfr : s' = s) {w : Worker} {c hwgroup : String} {rest : List String}
      (hm : message = c :: hwgroup :: rest) (hw : regFind identity s.workers = some w)
      (he : w.headers = (initHeaders rest []).1) :
    InitScript s env identity message s' []
  | fresh {c hwgroup : String} {rest : List String} {w : Worker} {cur : Option Req}
      {evs : List Ev} (hm : message = c :: hwgroup :: rest)
      (hw : regFind identity s.workers = none)
      (hn : NewWorker s env identity hwgroup (initHeaders rest []).1 (initHeaders rest []).2 w cur)
      (hf : RegFrame s s' w) (hr : RegScript w cur evs) :
    InitScript s env identity message s' evs
  | again {c hwgroup : String} {rest : List String} {old w : Worker} {cur : Option Req}
      {evs : List Ev} (hm : message = c :: hwgroup :: rest)
      (hw : regFind identity s.workers = some old) (hne : old.headers ≠ (initHeaders rest []).1)
      (hn : NewWorker s env identity hwgroup (initHeaders rest []).1 (initHeaders rest []).2 w cur)
      (hf : RegFrame s s' w) (hr : RegScript w cur evs) :
    InitScript s env identity message s' (.say ⟨keyNotifier, "", ["type", "error", "message",
      "Received two different INIT messages from the same worker ("
          ++ old.getDescription ++ ")"]⟩ :: evs)

/-- The abnormal outcomes of an `init` command: the worker cannot be constructed. -/
def InitErr (s : HState Q) (env : Env) (identity : String) (message : List String) (e : Err) :
    Prop :=
  ∃ c hwgroup rest x, message = c :: hwgroup :: rest ∧ e = .exn x ∧
    (∀ w, regFind identity s.workers = some w → w.headers ≠ (initHeaders rest []).1) ∧
    Worker.create (env.alloc s.allocs s.addrs) identity hwgroup (initHeaders rest []).1
      (initExtra (initHeaders rest []).2 "" none).1 = .error x

theorem wp_processInit {M : Nat} {env : Env} {s : HState Q} {hand : Multiset Req}
    {identity : String} {message : List String} (h : HInv s) :
    wp (processInit env identity message) s
      (fun _ s' => ∃ evs, Sim M s hand evs s' hand ∧ InitScript s env identity message s' evs)
      (fun e _ => InitErr s env identity message e) := by
  match message with
  | [] => exact ⟨[], Sim.refl h, .short (by simp) rfl⟩
  | [c] => exact ⟨[], Sim.refl h, .short (by simp) rfl⟩
  | c :: hwgroup :: rest =>
    simp only [processInit, wp_bind, wp_get]
    cases hfind : regFind identity s.workers with
    | none =>
      simp only
      refine wp_mono (wp_registerWorker (M := M) (hand := hand) h) ?_ ?_
      · rintro _ s' ⟨w, cur, evs, hn, hf, hsim, hr⟩
        exact ⟨evs, hsim, .fresh rfl hfind hn hf hr⟩
      · rintro e s' ⟨x, he, hx⟩
        exact ⟨c, hwgroup, rest, x, rfl, he, by simp [hfind], hx⟩
    | some old =>
      simp only [Worker.headersEqual, beq_iff_eq]
      by_cases he : (initHeaders rest []).1 = old.headers
      · rw [if_pos he]
        exact ⟨[], Sim.refl h, .same rfl rfl hfind he.symm⟩
      · rw [if_neg he]
        simp only [wp_bind, notifyError, wp_respond]
        have hs1 := sim_say (M := M) (hand := hand) h ⟨keyNotifier, "", ["type", "error", "message",
          "Received two different INIT messages from the same worker ("
          ++ old.getDescription ++ ")"]⟩
        refine wp_mono (wp_registerWorker (M := M) (hand := hand) hs1.inv) ?_ ?_
        · rintro _ s' ⟨w, cur, evs, hn, hf, hsim, hr⟩
          exact ⟨_, hs1.trans hsim, .again rfl hfind (Ne.symm he) ⟨hn.1, hn.2⟩
            ⟨hf.workers, hf.timers, hf.live, hf.stats, hf.frozen, hf.allocs⟩ hr⟩
        · rintro e s' ⟨x, hx1, hx2⟩
          exact ⟨c, hwgroup, rest, x, rfl, hx1, by simp [hfind]; exact Ne.symm he, hx2⟩

end Broker
