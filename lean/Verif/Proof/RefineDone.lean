import Verif.Proof.Refine

/-! # Refinement of `done` messages -/

set_option linter.unusedSectionVars false
set_option linter.unusedSimpArgs false

namespace Broker

open QueueManager LawfulQM

variable {Q : Type} [QueueManager Q] [LawfulQM Q]

/-- `Frame` without the statistics. -/
structure DFrame (s s' : HState Q) : Prop where
  workers : s'.workers = s.workers
  timers : s'.timers = s.timers
  live : s'.live = s.live
  frozen : s'.frozen = s.frozen
  allocs : s'.allocs = s.allocs

theorem Frame.toD {s s' : HState Q} (h : Frame s s') : DFrame s s' :=
  ⟨h.workers, h.timers, h.live, h.frozen, h.allocs⟩

theorem DFrame.refl (s : HState Q) : DFrame s s := ⟨rfl, rfl, rfl, rfl, rfl⟩

theorem DFrame.trans {a b c : HState Q} (h1 : DFrame a b) (h2 : DFrame b c) : DFrame a c :=
  ⟨h2.workers.trans h1.workers, h2.timers.trans h1.timers, h2.live.trans h1.live,
    h2.frozen.trans h1.frozen, h2.allocs.trans h1.allocs⟩

/-- Possibly a new request for the worker. -/
inductive Next (w : Worker) : List Ev → Prop
  | none : Next w []
  | pull (r : Req) : Next w [.pull w r]

/-- Statistics after a finished job. -/
def Stats.ok (st : Stats) : Stats := { st with evaluated := szInc st.evaluated }

/-- Statistics after a failed job. -/
def Stats.bad (st : Stats) : Stats := { st with failed := szInc st.failed }

/-- Text of the notification about an adopted job that failed. -/
def adoptedMsg (text : String) : String :=
  "Job failed with '" ++ text ++ "' and cannot be reassigned"

/-- Events of a `done` command about the current request `r` of worker `w`. -/
inductive DoneScript (M : Nat) (s s' : HState Q) (w : Worker) (r : Req) (status : String)
    (rest : List String) : List Ev → Prop
  | ok {t : List Ev} (hst : status = "OK") (ht : Next w t) (hs : s'.stats = s.stats.ok) :
    DoneScript M s s' w r status rest (.done w r :: t)
  | failed {t : List Ev} {text : String} (hst : status = "FAILED") (hr : rest = [text])
      (ht : Next w t) (hs : s'.stats = s.stats.bad) :
    DoneScript M s s' w r status rest (.failed w r text :: t)
  | adopted {text : String} (hst : status = "INTERNAL_ERROR") (hr : rest = [text])
      (hc : r.complete = false) (hs : s'.stats = s.stats.bad) :
    DoneScript M s s' w r status rest [.cancel w r, .giveUp r (adoptedMsg text)]
  | exhausted {t : List Ev} {text : String} (hst : status = "INTERNAL_ERROR") (hr : rest = [text])
      (hc : r.complete = true) (hfc : M ≤ szInc (s.fc r.rid)) (ht : Next w t)
      (hs : s'.stats = s.stats.bad) :
    DoneScript M s s' w r status rest
      (.cancel w r :: .giveUp r (tooManyMsg (szInc (s.fc r.rid)) text) ::
        .say (monMsg r.jobId "FAILED") :: t)
  | resent {x : Worker} {text : String} (hst : status = "INTERNAL_ERROR") (hr : rest = [text])
      (hc : r.complete = true) (hfc : szInc (s.fc r.rid) < M) (hs : s'.stats = s.stats.bad) :
    DoneScript M s s' w r status rest [.cancel w r, .send x r]
  | parked {text : String} (hst : status = "INTERNAL_ERROR") (hr : rest = [text])
      (hc : r.complete = true) (hfc : szInc (s.fc r.rid) < M) (hs : s'.stats = s.stats.bad) :
    DoneScript M s s' w r status rest [.cancel w r, .park r]
  | ignored (hs : s' = s)
      (hst : status ≠ "OK" ∧ ((status ≠ "INTERNAL_ERROR" ∧ status ≠ "FAILED") ∨
        rest.length ≠ 1)) :
    DoneScript M s s' w r status rest []

theorem next_of {w : Worker} {evs : List Ev} (h : evs = [] ∨ ∃ r, evs = [.pull w r]) :
    Next w evs := by
  rcases h with rfl | ⟨r, rfl⟩
  · exact .none
  · exact .pull r

theorem mem_of_busy {q : Q} {p : Worker × Req} {b} (h : busy q = p ::ₘ b) : p ∈ busy q := by
  rw [h]; simp

/-- In the multiset of busy pairs a worker occurs once. -/
theorem idle_of_busy_cons {q : Q} (hq : LawfulQM.Inv q) {w : Worker} {r : Req} {b}
    (h : busy q = (w, r) ::ₘ b) (r' : Req) : (w, r') ∉ b := by
  intro hm
  have := LawfulQM.busy_nodup hq
  rw [h, Multiset.map_cons, Multiset.nodup_cons] at this
  exact this.1 (Multiset.mem_map.2 ⟨_, hm, rfl⟩)

theorem wp_doneOk {M : Nat} {env : Env} {s : HState Q} {hand : Multiset Req} {w : Worker} {r : Req}
    {rest : List String} (h : HInv s) (hw : w ∈ s.workers) (hb : (w, r) ∈ busy s.queue) :
    wp (doneOk env w r.jobId) s
      (fun _ s' => DFrame s s' ∧ ∃ evs, Sim M s hand evs s' hand ∧
        DoneScript M s s' w r "OK" rest evs) NoErr := by
  obtain ⟨b, hbb⟩ := Multiset.exists_cons_of_mem hb
  obtain ⟨o, q', h1, h2, h3, h4⟩ := LawfulQM.finished env.srt h.qinv hbb
  simp only [doneOk, notifyDone, wp_bind, wp_respond, qFinished, wp_get, wp_liftE, h1, wp_modify,
    wp_pure]
  have hbc : ∀ p ∈ b, p.1.Can p.2.headers := fun p hp =>
    h.busyCan p (by rw [hbb]; exact Multiset.mem_cons_of_mem hp)
  have hreg : (s.workers : Multiset Worker) = reg q' := by rw [h3]; exact h.reg_eq
  have hstep := LStep.done (M := M) (ls s hand) w r b hbb
  rcases h4 with ⟨rfl, hb', hq⟩ | ⟨r', rfl, hcan, hq, hb'⟩
  · simp only [sendIfSome, wp_pure, countEvaluated, wp_modify]
    refine ⟨⟨rfl, rfl, rfl, rfl, rfl⟩, [.done w r], ⟨⟨h2, hreg, ?_⟩, ?_, ?_⟩,
      .ok rfl .none rfl⟩
    · show ∀ p ∈ busy q', p.1.Can p.2.headers
      rw [hb']; exact hbc
    · refine .single ?_
      simpa [ls, h3, hb', hq] using hstep
    · simp [Ev.msgs, okMsg]
  · simp only [sendIfSome, sendRequest, wp_respond, countEvaluated, wp_modify]
    refine ⟨⟨rfl, rfl, rfl, rfl, rfl⟩, [.done w r, .pull w r'], ⟨⟨h2, hreg, ?_⟩, ?_, ?_⟩,
      .ok rfl (.pull r') rfl⟩
    · show ∀ p ∈ busy q', p.1.Can p.2.headers
      rw [hb']; intro p hp
      rcases Multiset.mem_cons.1 hp with rfl | hp
      · exact hcan
      · exact hbc p hp
    · refine .cons hstep (.single ?_)
      have := LStep.pull (M := M) { ls s hand with busy := b } w r' (que q') hq
        (h.mem_reg.1 hw) (idle_of_busy_cons h.qinv hbb) hcan
      simpa [ls, h3, hb', hq] using this
    · simp [Ev.msgs, okMsg, sendMsg]

/-- Cancelling the current request and counting the failure. -/
theorem sim_cancel {M : Nat} {s : HState Q} {hand : Multiset Req} {w : Worker} {r : Req} {q' : Q}
    (h : HInv s) (h2 : LawfulQM.Inv q') (h3 : reg q' = reg s.queue)
    (hb : busy s.queue = (w, r) ::ₘ busy q') (hq : que q' = que s.queue) :
    Sim M s hand [.cancel w r]
      { s with queue := q', fc := upd s.fc r.rid (szInc (s.fc r.rid)) } (r ::ₘ hand) := by
  refine ⟨⟨h2, ?_, ?_⟩, ?_, by simp [Ev.msgs]⟩
  · show (s.workers : Multiset Worker) = reg q'
    rw [h3]; exact h.reg_eq
  · intro p hp
    exact h.busyCan p (by rw [hb]; exact Multiset.mem_cons_of_mem hp)
  · refine .single ?_
    have := LStep.cancel (M := M) (ls s hand) w r (busy q') hb
    simpa [ls, h3, hq, bump] using this

theorem wp_doneFailed {M : Nat} {env : Env} {s : HState Q} {hand : Multiset Req} {w : Worker}
    {r : Req} {text : String} (h : HInv s) (hw : w ∈ s.workers) (hb : (w, r) ∈ busy s.queue) :
    wp (doneFailed env w r.jobId text) s
      (fun _ s' => DFrame s s' ∧ ∃ evs, Sim M s hand evs s' hand ∧
        DoneScript M s s' w r "FAILED" [text] evs) NoErr := by
  obtain ⟨q', h1, h2, h3, hbb, hq⟩ := LawfulQM.cancelled h.qinv hb
  simp only [doneFailed, notifyFailed, wp_bind, wp_respond, qCancelled, wp_get, h1, wp_modify,
    wp_pure, bumpCount]
  have hbc : ∀ p ∈ busy q', p.1.Can p.2.headers := fun p hp =>
    h.busyCan p (by rw [hbb]; exact Multiset.mem_cons_of_mem hp)
  have hreg : (s.workers : Multiset Worker) = reg q' := by rw [h3]; exact h.reg_eq
  have hs1 : Sim M s hand [.failed w r text]
      { s with queue := q', fc := upd s.fc r.rid (szInc (s.fc r.rid)),
               outs := s.outs ++ [failMsg r.jobId text] } hand := by
    refine ⟨⟨h2, hreg, hbc⟩, .single ?_, by simp [Ev.msgs]⟩
    have := LStep.failed (M := M) (ls s hand) w r text (busy q') hbb
    simpa [ls, h3, hq, bump] using this
  have hassign := wp_qAssign_send (M := M) (env := env) (hand := hand) (w := w) hs1.inv hw
    (idle_of_busy_cons h.qinv hbb)
  rw [wp_bind] at hassign
  refine wp_mono hassign ?_ (fun _ _ hE => hE)
  intro o s1 h4
  refine wp_mono h4 ?_ (fun _ _ hE => hE)
  rintro _ s' ⟨hfr, evs, hsim, hevs⟩
  simp only [countFailed, wp_modify]
  have hsim' : Sim M s hand (.failed w r text :: evs)
      { s' with stats := { s'.stats with failed := szInc s'.stats.failed } } hand := by
    have := hs1.trans hsim
    exact ⟨this.inv.of_eq rfl rfl, this.steps, this.outs⟩
  refine ⟨⟨hfr.workers, hfr.timers, hfr.live, hfr.frozen, hfr.allocs⟩, _, hsim',
    .failed rfl rfl (next_of hevs) ?_⟩
  show ({ s'.stats with failed := szInc s'.stats.failed } : Stats) = s.stats.bad
  rw [hfr.stats]; rfl

theorem wp_doneInternal {cfg : HConfig} {env : Env} {s : HState Q} {hand : Multiset Req}
    {w : Worker} {r : Req} {text : String} (h : HInv s) (hw : w ∈ s.workers)
    (hb : (w, r) ∈ busy s.queue) :
    wp (doneInternal cfg env w text) s
      (fun _ s' => DFrame s s' ∧ ∃ evs, Sim cfg.maxFailures s hand evs s' hand ∧
        DoneScript cfg.maxFailures s s' w r "INTERNAL_ERROR" [text] evs) NoErr := by
  obtain ⟨q', h1, h2, h3, hbb, hq⟩ := LawfulQM.cancelled h.qinv hb
  have hcan : w.Can r.headers := h.busyCan _ hb
  have hsafe := h.busy_safe hb
  simp only [doneInternal, wp_bind, qCancelled, wp_get, h1, wp_modify, wp_pure, bumpCount]
  have hs1 := sim_cancel (M := cfg.maxFailures) (hand := hand) h h2 h3 hbb hq
  generalize hs1d : ({ s with queue := q', fc := upd s.fc r.rid (szInc (s.fc r.rid)) } : HState Q)
    = s1 at hs1 ⊢
  have hfc1 : s1.fc r.rid = szInc (s.fc r.rid) := by rw [← hs1d]; simp [upd]
  have hq1 : s1.queue = q' := by rw [← hs1d]
  have hst1 : s1.stats = s.stats := by rw [← hs1d]
  have hd1 : DFrame s s1 := by rw [← hs1d]; exact ⟨rfl, rfl, rfl, rfl, rfl⟩
  have hw1 : w ∈ s1.workers := by rw [hd1.workers]; exact hw
  by_cases hc : r.complete = false
  · rw [if_pos hc]
    simp only [wp_bind, notifyRejected, wp_respond, countFailed, wp_modify]
    have hst : ([.cancel w r] ++ [.giveUp r (adoptedMsg text)] : List Ev) =
      [.cancel w r, .giveUp r (adoptedMsg text)] := rfl
    have hsteps := hs1.steps.append (.single (LStep.giveUp (M := cfg.maxFailures)
      (ls s1 (r ::ₘ hand)) r (adoptedMsg text) hand rfl (Or.inl hc)))
    rw [hst] at hsteps
    refine ⟨⟨hd1.workers, hd1.timers, hd1.live, hd1.frozen, hd1.allocs⟩,
      [.cancel w r, .giveUp r (adoptedMsg text)], ⟨hs1.inv.of_eq rfl rfl, hsteps, ?_⟩,
      .adopted rfl rfl hc ?_⟩
    · have ho : s1.outs = s.outs := by rw [← hs1d]
      show s1.outs ++ [failMsg r.jobId (adoptedMsg text)] = s.outs ++ [failMsg r.jobId (adoptedMsg text)]
      rw [ho]
    · show ({ s1.stats with failed := szInc s1.stats.failed } : Stats) = _
      rw [hst1]; rfl
  · rw [if_neg hc]
    have hcomp : r.complete = true := by simpa using hc
    rw [wp_bind]
    refine wp_mono (wp_checkFailureCount (cfg := cfg) (hand := hand) (r := r) (text := text)
      hs1.inv) ?_ (fun _ _ hE => hE)
    rintro b s2 ⟨hfr2, hfc2, hq2, ⟨rfl, rfl, hlt⟩ | ⟨rfl, hle, hsim2⟩⟩
    · simp only [if_true, wp_bind]
      refine wp_mono (wp_reassign (M := cfg.maxFailures) (env := env) (hand := hand) hs1.inv hsafe
        hcomp (Or.inr hlt)) ?_ (fun _ _ hE => hE)
      rintro b s3 ⟨hfr3, hfc3, ⟨rfl, evs, hsim3, hevs⟩ | ⟨rfl, _, hhop⟩⟩
      · simp only [wp_pure, countFailed, wp_modify]
        have hsim := hs1.trans hsim3
        refine ⟨hd1.trans ⟨hfr3.workers, hfr3.timers, hfr3.live, hfr3.frozen, hfr3.allocs⟩, _,
          ⟨hsim.inv.of_eq rfl rfl, hsim.steps, hsim.outs⟩, ?_⟩
        have hst : ({ s3.stats with failed := szInc s3.stats.failed } : Stats) = s.stats.bad := by
          rw [hfr3.stats, hst1]; rfl
        rcases hevs with ⟨x, rfl⟩ | rfl
        · exact .resent rfl rfl hcomp (by rw [← hfc1]; exact hlt) hst
        · exact .parked rfl rfl hcomp (by rw [← hfc1]; exact hlt) hst
      · exfalso
        have := hhop w (hs1.inv.mem_reg.1 hw1)
        rw [Worker.Can] at hcan
        rw [hcan] at this
        simp at this
    · simp only [Bool.false_eq_true, if_false]
      have hw2 : w ∈ s2.workers := by rw [hfr2.workers]; exact hw1
      have hidle : ∀ r', (w, r') ∉ busy s2.queue := by
        rw [hq2, hq1]; exact idle_of_busy_cons h.qinv hbb
      have hassign := wp_qAssign_send (M := cfg.maxFailures) (env := env) (hand := hand) hsim2.inv
        hw2 hidle
      rw [wp_bind] at hassign
      rw [wp_bind]
      refine wp_mono hassign ?_ (fun _ _ hE => hE)
      intro o s3 h5
      rw [wp_bind]
      refine wp_mono h5 ?_ (fun _ _ hE => hE)
      rintro _ s4 ⟨hfr4, evs, hsim4, hevs⟩
      simp only [countFailed, wp_modify]
      have hsim := (hs1.trans hsim2).trans hsim4
      have hd := hd1.trans (hfr2.toD.trans hfr4.toD)
      refine ⟨⟨hd.workers, hd.timers, hd.live, hd.frozen, hd.allocs⟩, _,
        ⟨hsim.inv.of_eq rfl rfl, hsim.steps, hsim.outs⟩, ?_⟩
      rw [hfc1]
      refine .exhausted rfl rfl hcomp (by rw [← hfc1]; exact hle) (next_of hevs) ?_
      show ({ s4.stats with failed := szInc s4.stats.failed } : Stats) = s.stats.bad
      rw [hfr4.stats, hfr2.stats, hst1]; rfl

omit [LawfulQM Q] [QueueManager Q] in
theorem regFind_mem {i : String} {ws : List Worker} {w : Worker} (h : regFind i ws = some w) :
    w ∈ ws ∧ w.identity = i := by
  refine ⟨List.mem_of_find?_eq_some h, ?_⟩
  have := List.find?_some h
  simpa using this

/-- What a `done` command does. -/
inductive DoneCase (M : Nat) (s s' : HState Q) (identity : String) (message : List String) :
    List Ev → Prop
  | unknown (h : regFind identity s.workers = none) (hs : s' = s) :
    DoneCase M s s' identity message []
  | short (h : message.length < 3) (hs : s' = s) : DoneCase M s s' identity message []
  | stale {w : Worker} {r : Req} {c j st : String} {rest : List String}
      (hw : regFind identity s.workers = some w) (hm : message = c :: j :: st :: rest)
      (hb : (w, r) ∈ busy s.queue) (hj : j ≠ r.jobId) (hs : s' = s) :
    DoneCase M s s' identity message []
  | report {w : Worker} {r : Req} {c j st : String} {rest : List String} {evs : List Ev}
      (hw : regFind identity s.workers = some w) (hm : message = c :: j :: st :: rest)
      (hb : (w, r) ∈ busy s.queue) (hj : j = r.jobId) (hf : DFrame s s')
      (hd : DoneScript M s s' w r st rest evs) :
    DoneCase M s s' identity message evs

/-- The abnormal outcome of a `done` command: the worker has no current job. -/
def DoneErr (s : HState Q) (identity : String) (message : List String) (e : Err) : Prop :=
  3 ≤ message.length ∧ e = .ub .nullDeref ∧
    ∃ w, regFind identity s.workers = some w ∧ ∀ r, (w, r) ∉ busy s.queue

theorem wp_processDone {cfg : HConfig} {env : Env} {s : HState Q} {hand : Multiset Req}
    {identity : String} {message : List String} (h : HInv s) :
    wp (processDone cfg env identity message) s
      (fun _ s' => ∃ evs, Sim cfg.maxFailures s hand evs s' hand ∧
        DoneCase cfg.maxFailures s s' identity message evs)
      (fun e _ => DoneErr s identity message e) := by
  simp only [processDone, wp_bind, wp_get]
  cases hfind : regFind identity s.workers with
  | none => exact ⟨[], Sim.refl h, .unknown hfind rfl⟩
  | some w =>
    have hw := (regFind_mem hfind).1
    match message with
    | [] => exact ⟨[], Sim.refl h, .short (by simp) rfl⟩
    | [_] => exact ⟨[], Sim.refl h, .short (by simp) rfl⟩
    | [_, _] => exact ⟨[], Sim.refl h, .short (by simp) rfl⟩
    | c :: j :: st :: rest =>
      simp only [wp_bind]
      refine wp_qCurrent h hw ?_ ?_
      · intro hidle
        exact ⟨by simp, rfl, w, hfind, hidle⟩
      · intro r hb
        simp only
        by_cases hj : j = r.jobId
        · subst hj
          simp only [ne_eq, not_true_eq_false, if_false]
          have tail : ∀ {m : HM Q Unit} {E : Err → HState Q → Prop},
              wp m s (fun _ s' => DFrame s s' ∧ ∃ evs, Sim cfg.maxFailures s hand evs s' hand ∧
                DoneScript cfg.maxFailures s s' w r st rest evs) NoErr →
              wp (do m; let _ ← qCurrent w) s
                (fun _ s' => ∃ evs, Sim cfg.maxFailures s hand evs s' hand ∧
                  DoneCase cfg.maxFailures s s' identity (c :: r.jobId :: st :: rest) evs) E := by
            intro m E hm
            rw [wp_bind]
            refine wp_mono hm ?_ (fun _ _ hE => hE.elim)
            rintro _ s' ⟨hf, evs, hsim, hd⟩
            rw [wp_bind]
            have hw' : w ∈ s'.workers := by rw [hf.workers]; exact hw
            refine wp_qCurrent hsim.inv hw' ?_ ?_
            · intro _; exact ⟨evs, hsim, .report hfind rfl hb rfl hf hd⟩
            · intro r' _; exact ⟨evs, hsim, .report hfind rfl hb rfl hf hd⟩
          by_cases hok : st = "OK"
          · subst hok
            rw [if_pos rfl]
            exact tail (wp_doneOk h hw hb)
          · rw [if_neg hok]
            by_cases hie : st = "INTERNAL_ERROR"
            · subst hie
              rw [if_pos rfl]
              match rest with
              | [text] => exact tail (wp_doneInternal h hw hb)
              | [] =>
                exact ⟨[], Sim.refl h, .report hfind rfl hb rfl (DFrame.refl s)
                  (.ignored rfl ⟨hok, Or.inr (by simp)⟩)⟩
              | _ :: _ :: _ =>
                exact ⟨[], Sim.refl h, .report hfind rfl hb rfl (DFrame.refl s)
                  (.ignored rfl ⟨hok, Or.inr (by simp)⟩)⟩
            · rw [if_neg hie]
              by_cases hfa : st = "FAILED"
              · subst hfa
                rw [if_pos rfl]
                match rest with
                | [text] => exact tail (wp_doneFailed h hw hb)
                | [] =>
                  exact ⟨[], Sim.refl h, .report hfind rfl hb rfl (DFrame.refl s)
                    (.ignored rfl ⟨hok, Or.inr (by simp)⟩)⟩
                | _ :: _ :: _ =>
                  exact ⟨[], Sim.refl h, .report hfind rfl hb rfl (DFrame.refl s)
                    (.ignored rfl ⟨hok, Or.inr (by simp)⟩)⟩
              · rw [if_neg hfa, wp_bind]
                have hd : DoneCase cfg.maxFailures s s identity (c :: r.jobId :: st :: rest) [] :=
                  .report hfind rfl hb rfl (DFrame.refl s) (.ignored rfl ⟨hok, Or.inl ⟨hie, hfa⟩⟩)
                refine wp_qCurrent h hw ?_ ?_
                · intro _; exact ⟨[], Sim.refl h, hd⟩
                · intro _ _; exact ⟨[], Sim.refl h, hd⟩
        · rw [if_pos hj]
          exact ⟨[], Sim.refl h, .stale hfind rfl hb hj rfl⟩

end Broker
