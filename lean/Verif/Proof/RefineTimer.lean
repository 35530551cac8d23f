import Verif.Proof.RefineDone
import Verif.Proof.WMap

/-! # Refinement of the timer event -/

set_option linter.unusedSectionVars false
set_option linter.unusedSimpArgs false

namespace Broker

open QueueManager LawfulQM

variable {Q : Type} [QueueManager Q] [LawfulQM Q]

/-! ## The loop over workers -/

/-- A change of timers and liveness counters only. -/
def TickFrame (s s' : HState Q) : Prop :=
  s' = { s with timers := s'.timers, live := s'.live }

theorem TickFrame.refl (s : HState Q) : TickFrame s s := rfl

theorem TickFrame.trans {a b c : HState Q} (h1 : TickFrame a b) (h2 : TickFrame b c) :
    TickFrame a c := by
  unfold TickFrame at *
  rw [h2, h1]

/-- What one round of the loop over workers does to worker `w`; `ex` tells whether it expires. -/
def Ticked (cfg : HConfig) (time : Int) (s s' : HState Q) (ex : Prop) (w : Worker) : Prop :=
  if s.timers.getD w 0 + time > cfg.pingInterval then
    s'.timers.getD w 0 = 0 ∧ s'.live w.addr = szDec (s.live w.addr) ∧
      (ex ↔ szDec (s.live w.addr) = 0)
  else
    s'.timers.getD w 0 = s.timers.getD w 0 + time ∧ s'.live w.addr = s.live w.addr ∧ ¬ ex

theorem wp_tickWorker {cfg : HConfig} {time : Int} {w : Worker} {s : HState Q} {E} :
    wp (tickWorker cfg time w) s (fun b s' => TickFrame s s' ∧ Ticked cfg time s s' (b = true) w ∧
      ∀ x : Worker, x.addr ≠ w.addr → s'.timers.getD x 0 = s.timers.getD x 0 ∧
        s'.live x.addr = s.live x.addr) E := by
  simp only [tickWorker, wp_bind, wp_get]
  by_cases h : s.timers.getD w 0 + time > cfg.pingInterval
  · rw [if_pos h]; simp only [wp_bind, wp_set, wp_pure]
    refine ⟨rfl, ?_, ?_⟩
    · unfold Ticked
      rw [if_pos h]
      simp [WMap.getD, WMap.find_put_self, upd]
    · intro x hx
      simp [WMap.getD, WMap.find_put_of_ne hx, upd, hx]
  · rw [if_neg h]; simp only [wp_bind, wp_set, wp_pure]
    refine ⟨rfl, ?_, ?_⟩
    · unfold Ticked
      rw [if_neg h]
      simp [WMap.getD, WMap.find_put_self]
    · intro x hx
      simp [WMap.getD, WMap.find_put_of_ne hx]

theorem wp_tickWorkers {cfg : HConfig} {time : Int} {ws : List Worker} : ∀ {s : HState Q} {E}
    (_ : (ws.map (·.addr)).Nodup),
    wp (tickWorkers cfg time ws) s (fun l s' => TickFrame s s' ∧ l.Sublist ws ∧
      (∀ w ∈ ws, Ticked cfg time s s' (w ∈ l) w) ∧
      ∀ x : Worker, x.addr ∉ ws.map (·.addr) → s'.timers.getD x 0 = s.timers.getD x 0 ∧
        s'.live x.addr = s.live x.addr) E := by
  induction ws with
  | nil => intro s E _; exact ⟨rfl, List.Sublist.refl _, by simp, by simp⟩
  | cons w t ih =>
    intro s E hn
    simp only [List.map_cons, List.nodup_cons] at hn
    simp only [tickWorkers, wp_bind]
    refine wp_mono wp_tickWorker ?_ (fun _ _ hE => hE)
    rintro b s1 ⟨h1, ht1, hx1⟩
    refine wp_mono (ih hn.2) ?_ (fun _ _ hE => hE)
    rintro l s2 ⟨h2, hl, ht2, hx2⟩
    simp only [wp_pure]
    have hwl : w ∉ l := fun h => hn.1 (List.mem_map.2 ⟨w, hl.subset h, rfl⟩)
    refine ⟨h1.trans h2, ?_, ?_, ?_⟩
    · cases b with
      | true => simpa using hl
      | false => simpa using hl.trans (List.sublist_cons_self w t)
    · intro x hx
      rcases List.mem_cons.1 hx with rfl | hx
      · have hiff : (x ∈ if b = true then x :: l else l) ↔ b = true := by
          cases b <;> simp [hwl]
        have hxx := hx2 x hn.1
        unfold Ticked at ht1 ⊢
        rw [hxx.1, hxx.2]
        simp only [hiff]
        exact ht1
      · have hne : x.addr ≠ w.addr := fun h => hn.1 (h ▸ List.mem_map.2 ⟨x, hx, rfl⟩)
        have hiff : (x ∈ if b = true then w :: l else l) ↔ x ∈ l := by
          have : x ≠ w := fun h => hne (by rw [h])
          cases b <;> simp [this]
        have hxx := hx1 x hne
        have := ht2 x hx
        unfold Ticked at this ⊢
        rw [hxx.1, hxx.2] at this
        simp only [hiff]
        exact this
    · intro x hx
      simp only [List.map_cons, List.mem_cons, not_or] at hx
      have a := hx1 x hx.1
      have b := hx2 x hx.2
      exact ⟨b.1.trans a.1, b.2.trans a.2⟩

/-! ## Requests of an expired worker -/

/-- Events of the loop over the requests of an expired worker: the requests, the events and the
    requests that could not be assigned. -/
inductive SettleScript (M : Nat) (fc : Nat → Nat) (reg : Multiset Worker) :
    List Req → List Ev → List Req → Prop
  | nil : SettleScript M fc reg [] [] []
  | adopted {r : Req} {rs : List Req} {evs : List Ev} {un : List Req} (hc : r.complete = false)
      (h : SettleScript M fc reg rs evs un) :
    SettleScript M fc reg (r :: rs)
      (.giveUp r timeoutMsg :: .say (monMsg r.jobId "FAILED") :: evs) un
  | exhausted {r : Req} {rs : List Req} {evs : List Ev} {un : List Req} (hc : r.complete = true)
      (hfc : M ≤ fc r.rid) (h : SettleScript M fc reg rs evs un) :
    SettleScript M fc reg (r :: rs)
      (.giveUp r (tooManyMsg (fc r.rid) timeoutMsg) :: .say (monMsg r.jobId "FAILED") :: evs) un
  | resent {r : Req} {rs : List Req} {evs : List Ev} {un : List Req} {w : Worker}
      (hc : r.complete = true) (hfc : fc r.rid < M) (h : SettleScript M fc reg rs evs un) :
    SettleScript M fc reg (r :: rs) (.send w r :: .say (monMsg r.jobId "ABORTED") :: evs) un
  | parked {r : Req} {rs : List Req} {evs : List Ev} {un : List Req}
      (hc : r.complete = true) (hfc : fc r.rid < M) (h : SettleScript M fc reg rs evs un) :
    SettleScript M fc reg (r :: rs) (.park r :: .say (monMsg r.jobId "ABORTED") :: evs) un
  | stuck {r : Req} {rs : List Req} {evs : List Ev} {un : List Req}
      (hc : r.complete = true) (hfc : fc r.rid < M) (hh : Hopeless reg r)
      (h : SettleScript M fc reg rs evs un) :
    SettleScript M fc reg (r :: rs) (.say (monMsg r.jobId "FAILED") :: evs) (r :: un)

theorem SettleScript.un_hopeless {M : Nat} {fc : Nat → Nat} {reg : Multiset Worker}
    {rs un : List Req} {evs : List Ev} (h : SettleScript M fc reg rs evs un) :
    ∀ r ∈ un, Hopeless reg r := by
  induction h with
  | nil => simp
  | stuck hc hfc hh h ih =>
    intro x hx
    rcases List.mem_cons.1 hx with rfl | hx
    · exact hh
    · exact ih x hx
  | _ => assumption

theorem LStep.reg_eq_of_move {M : Nat} {L L' : LS} {e : Ev} (h : LStep M L e L')
    (hr : ∀ w c, e ≠ .register w c) (hx : ∀ w c q, e ≠ .expire w c q) : L'.reg = L.reg := by
  cases h with
  | register w cur => exact absurd rfl (hr w cur)
  | expire w cur qs => exact absurd rfl (hx w cur qs)
  | _ => rfl

theorem wp_settle {cfg : HConfig} {env : Env} : ∀ {rs : List Req} {s : HState Q}
    {hand : Multiset Req} (_ : HInv s) (_ : ∀ r ∈ rs, SafeHeaders r.headers),
    wp (settleRequests cfg env rs) s
      (fun un s' => Frame s s' ∧ s'.fc = s.fc ∧ reg s'.queue = reg s.queue ∧
        ∃ evs, Sim cfg.maxFailures s ((rs : Multiset Req) + hand) evs s'
          ((un : Multiset Req) + hand) ∧
          SettleScript cfg.maxFailures s.fc (reg s.queue) rs evs un) NoErr := by
  intro rs
  induction rs with
  | nil =>
    intro s hand h _
    exact ⟨Frame.refl s, rfl, rfl, [], Sim.refl h, .nil⟩
  | cons r rs ih =>
    intro s hand h hsafe
    have hsafe' : ∀ r ∈ rs, SafeHeaders r.headers :=
      fun x hx => hsafe x (List.mem_cons_of_mem _ hx)
    have hand_eq : ((r :: rs : List Req) : Multiset Req) + hand
        = r ::ₘ ((rs : Multiset Req) + hand) := by
      rw [← Multiset.cons_coe, Multiset.cons_add]
    simp only [settleRequests]
    by_cases hc : r.complete = false
    · rw [if_pos hc]
      simp only [wp_bind, notifyRejected, notifyMonitor, wp_respond]
      generalize hs1d : ({ s with outs := s.outs ++ [⟨keyNotifier, "", ["type", "job-status", "id",
        r.jobId, "status", "FAILED", "message", timeoutMsg]⟩] ++
        [⟨keyMonitor, monitorIdentity, [r.jobId, "FAILED"]⟩] } : HState Q) = s1
      have hf1 : Frame s s1 := by rw [← hs1d]; exact ⟨rfl, rfl, rfl, rfl, rfl, rfl⟩
      have hfc1 : s1.fc = s.fc := by rw [← hs1d]
      have hq1 : s1.queue = s.queue := by rw [← hs1d]
      have hs1 : Sim cfg.maxFailures s (((r :: rs : List Req) : Multiset Req) + hand)
          [.giveUp r timeoutMsg, .say (monMsg r.jobId "FAILED")] s1
          ((rs : Multiset Req) + hand) := by
        rw [hand_eq]
        refine ⟨h.of_eq hq1 hf1.workers, ?_, ?_⟩
        · refine .cons (LStep.giveUp (ls s _) r timeoutMsg _ rfl (Or.inl hc)) (.single ?_)
          rw [← hs1d]
          exact LStep.say _ _
        · rw [← hs1d]
          simp [Ev.msgs, failMsg, monMsg]
      refine wp_mono (ih (hand := hand) hs1.inv hsafe') ?_ (fun _ _ hE => hE)
      rintro un s2 ⟨hf2, hfc2, hq2, evs, hsim2, hscr⟩
      rw [hfc1, hq1] at hscr
      exact ⟨hf1.trans hf2, hfc2.trans hfc1, by rw [hq2, hq1], _, hs1.trans hsim2, .adopted hc hscr⟩
    · rw [if_neg hc]
      have hcomp : r.complete = true := by simpa using hc
      rw [wp_bind]
      refine wp_mono (wp_checkFailureCount (cfg := cfg) (hand := (rs : Multiset Req) + hand)
        (r := r) (text := timeoutMsg) h) ?_ (fun _ _ hE => hE)
      rintro b s1 ⟨hf1, hfc1, hq1, ⟨rfl, rfl, hlt⟩ | ⟨rfl, hle, hsim1⟩⟩
      · simp only [if_true, wp_bind]
        refine wp_mono (wp_reassign (M := cfg.maxFailures) (env := env)
          (hand := (rs : Multiset Req) + hand) h (hsafe r (by simp))
          hcomp (Or.inr hlt)) ?_ (fun _ _ hE => hE)
        rintro b s2 ⟨hf2, hfc2, ⟨rfl, evs2, hsim2, hevs2⟩ | ⟨rfl, hsim2, hhop⟩⟩
        · simp only [if_true, wp_bind, notifyMonitor, wp_respond]
          have hreg2 : reg s2.queue = reg s1.queue := by
            rw [← hsim2.inv.reg_eq, ← h.reg_eq, hf2.workers]
          have hs3 := hsim2.trans (sim_say hsim2.inv (monMsg r.jobId "ABORTED"))
          refine wp_mono (ih (hand := hand) hs3.inv hsafe') ?_ (fun _ _ hE => hE)
          rintro un s4 ⟨hf4, hfc4, hq4, evs4, hsim4, hscr⟩
          have hscr' : SettleScript cfg.maxFailures s1.fc (reg s1.queue) rs evs4 un := by
            rw [← hreg2, ← hfc2]; exact hscr
          refine ⟨hf2.trans ⟨hf4.workers, hf4.timers, hf4.live, hf4.stats, hf4.frozen,
            hf4.allocs⟩, hfc4.trans hfc2, hq4.trans hreg2, _,
            by rw [hand_eq]; exact hs3.trans hsim4, ?_⟩
          rcases hevs2 with ⟨w, rfl⟩ | rfl
          · exact .resent hcomp hlt hscr'
          · exact .parked hcomp hlt hscr'
        · simp only [Bool.false_eq_true, if_false, wp_bind]
          have hreg2 : reg s2.queue = reg s1.queue := by
            rw [← hsim2.inv.reg_eq, ← h.reg_eq, hf2.workers]
          refine wp_mono (ih (hand := r ::ₘ hand) hsim2.inv hsafe') ?_ (fun _ _ hE => hE)
          rintro un s4 ⟨hf4, hfc4, hq4, evs4, hsim4, hscr⟩
          rw [hreg2, hfc2] at hscr
          simp only [wp_pure]
          refine ⟨hf2.trans hf4, hfc4.trans hfc2, hq4.trans hreg2, _, ?_,
            .stuck hcomp hlt hhop hscr⟩
          have e1 : (rs : Multiset Req) + (r ::ₘ hand) = r ::ₘ ((rs : Multiset Req) + hand) :=
            Multiset.add_cons _ _ _
          have e2 : (un : Multiset Req) + (r ::ₘ hand) = ((r :: un : List Req) : Multiset Req) + hand := by
            rw [Multiset.add_cons, ← Multiset.cons_coe, Multiset.cons_add]
          rw [e1, e2] at hsim4
          rw [hand_eq]
          exact hsim2.trans hsim4
      · simp only [Bool.false_eq_true, if_false]
        refine wp_mono (ih (hand := hand) hsim1.inv hsafe') ?_ (fun _ _ hE => hE)
        rintro un s4 ⟨hf4, hfc4, hq4, evs4, hsim4, hscr⟩
        rw [hq1, hfc1] at hscr
        exact ⟨hf1.trans hf4, hfc4.trans hfc1, by rw [hq4, hq1], _,
          by rw [hand_eq]; exact hsim1.trans hsim4, .exhausted hcomp hle hscr⟩

theorem wp_rejectAll {M : Nat} {desc : String} : ∀ {un : List Req} {s : HState Q}
    {hand : Multiset Req} (_ : HInv s) (_ : ∀ r ∈ un, Hopeless (reg s.queue) r),
    wp (rejectAll desc un) s
      (fun _ s' => Frame s s' ∧ s'.fc = s.fc ∧ s'.queue = s.queue ∧
        Sim M s ((un : Multiset Req) + hand) (un.map (fun r => .giveUp r desc)) s' hand) NoErr := by
  intro un
  induction un with
  | nil =>
    intro s hand h _
    exact ⟨Frame.refl s, rfl, rfl, by simpa using Sim.refl h⟩
  | cons r un ih =>
    intro s hand h hh
    simp only [rejectAll, wp_bind, notifyRejected, wp_respond]
    have hs1 : Sim M s (((r :: un : List Req) : Multiset Req) + hand) [.giveUp r desc]
        { s with outs := s.outs ++ [failMsg r.jobId desc] } ((un : Multiset Req) + hand) := by
      refine ⟨h.of_eq rfl rfl, .single ?_, by simp [Ev.msgs]⟩
      exact LStep.giveUp (ls s _) r desc _
        (by show ((r :: un : List Req) : Multiset Req) + hand = _
            rw [← Multiset.cons_coe, Multiset.cons_add])
        (Or.inr (Or.inr (hh r (by simp))))
    refine wp_mono (ih (hand := hand) hs1.inv (fun x hx => hh x (List.mem_cons_of_mem _ hx))) ?_
      (fun _ _ hE => hE)
    rintro _ s2 ⟨hf2, hfc2, hq2, hsim2⟩
    exact ⟨⟨hf2.workers, hf2.timers, hf2.live, hf2.stats, hf2.frozen, hf2.allocs⟩, hfc2, hq2,
      hs1.trans hsim2⟩

/-! ## Expiry -/

theorem regRemove_perm {ws : List Worker} {w : Worker} (hn : (ws.map (·.addr)).Nodup)
    (hw : w ∈ ws) : ws.Perm (w :: regRemove w ws) := by
  induction ws with
  | nil => simp at hw
  | cons x t ih =>
    simp only [List.map_cons, List.nodup_cons] at hn
    by_cases hx : x = w
    · subst hx; simp [regRemove]
    · have hwt : w ∈ t := by
        rcases List.mem_cons.1 hw with h | h
        · exact absurd h.symm hx
        · exact h
      have hne : x.addr ≠ w.addr := by
        intro h; exact hn.1 (List.mem_map.2 ⟨w, hwt, h.symm⟩)
      simp only [regRemove, if_neg hne]
      exact ((ih hn.2 hwt).cons x).trans (List.Perm.swap _ _ _)

theorem HInv.addr_nodup {s : HState Q} (h : HInv s) : (s.workers.map (·.addr)).Nodup := by
  have := reg_nodup h.qinv
  rw [← h.reg_eq] at this
  simpa using this

/-- Text of the notification about jobs nobody else can take over. -/
def diededMsg (w : Worker) : String := "Worker " ++ w.getDescription ++ " dieded"

/-- Events of the expiry of one worker. -/
inductive ExpireScript (M : Nat) (fc fc' : Nat → Nat) (reg' : Multiset Worker) (w : Worker) :
    List Ev → Prop
  | mk {cur : Option Req} {qs : List Req} {evs : List Ev} {un : List Req}
      (h : SettleScript M (bumpOpt fc cur) reg' (cur.toList ++ qs) evs un)
      (hfc : fc' = bumpOpt fc cur) :
    ExpireScript M fc fc' reg' w
      (.expire w cur qs :: (evs ++ un.map (fun r => .giveUp r (diededMsg w))))

/-- The parts of the state the expiry of workers leaves alone. -/
structure ExpFrame (s s' : HState Q) : Prop where
  timers : s'.timers = s.timers
  live : s'.live = s.live
  stats : s'.stats = s.stats
  frozen : s'.frozen = s.frozen
  allocs : s'.allocs = s.allocs

theorem wp_expireWorker {cfg : HConfig} {env : Env} {s : HState Q} {hand : Multiset Req}
    {w : Worker} (h : HInv s) (hw : w ∈ s.workers) :
    wp (expireWorker cfg env w) s
      (fun _ s' => ExpFrame s s' ∧ s'.workers = regRemove w s.workers ∧
        ∃ evs, Sim cfg.maxFailures s hand evs s' hand ∧
          ExpireScript cfg.maxFailures s.fc s'.fc (reg s'.queue) w evs) NoErr := by
  have hwr := h.mem_reg.1 hw
  obtain ⟨c1, c2⟩ := LawfulQM.current h.qinv hwr
  obtain ⟨cur, qs, q', t1, t2, t3, t4, t5⟩ := LawfulQM.terminated h.qinv hwr
  have hcur : (currentRequest s.queue w).1 = cur := by
    cases cur with
    | some r => exact (c2 r).2 (by rw [t5]; simp)
    | none =>
      cases hc : (currentRequest s.queue w).1 with
      | none => rfl
      | some r =>
        exfalso
        have hm := (c2 r).1 hc
        rw [t5] at hm
        have hm' : (w, r) ∈ busy q' := by simpa using hm
        have hwq := busy_reg t2 _ hm'
        have hn := reg_nodup h.qinv
        rw [t3, Multiset.map_cons, Multiset.nodup_cons] at hn
        exact hn.1 (Multiset.mem_map.2 ⟨w, hwq, rfl⟩)
  have hsafe : ∀ r ∈ cur.toList ++ qs, SafeHeaders r.headers := by
    intro r hr
    rcases List.mem_append.1 hr with hr | hr
    · have : cur = some r := by simpa using hr
      exact h.busy_safe (w := w) (by rw [t5, this]; simp)
    · exact h.que_safe (by rw [t4]; simp [hr])
  simp only [expireWorker, wp_bind, wp_modify, qCurrent, wp_get, wp_pure, c1, hcur]
  -- the state after counting the failure
  have key : wp (do
        let requests ← qTerminated w
        let unassigned ← settleRequests cfg env requests
        rejectAll ("Worker " ++ w.getDescription ++ " dieded") unassigned)
      ({ s with workers := regRemove w s.workers, fc := bumpOpt s.fc cur } : HState Q)
      (fun _ s' => ExpFrame s s' ∧ s'.workers = regRemove w s.workers ∧
        ∃ evs, Sim cfg.maxFailures s hand evs s' hand ∧
          ExpireScript cfg.maxFailures s.fc s'.fc (reg s'.queue) w evs) NoErr := by
    simp only [wp_bind, qTerminated, wp_get, wp_liftE, t1, wp_modify, wp_pure]
    have hp := regRemove_perm h.addr_nodup hw
    have hreg : (regRemove w s.workers : Multiset Worker) = reg q' := by
      have : (s.workers : Multiset Worker) = w ::ₘ (regRemove w s.workers : Multiset Worker) := by
        simpa using hp
      rw [h.reg_eq, t3] at this
      exact ((Multiset.cons_inj_right _).1 this).symm
    have hs1 : Sim cfg.maxFailures s hand [.expire w cur qs]
        { s with workers := regRemove w s.workers, fc := bumpOpt s.fc cur, queue := q' }
        (((cur.toList ++ qs : List Req) : Multiset Req) + hand) := by
      refine ⟨⟨t2, hreg, ?_⟩, .single ?_, by simp [Ev.msgs]⟩
      · intro p hp
        exact h.busyCan p (by rw [t5]; exact Multiset.mem_add.2 (Or.inr hp))
      · exact LStep.expire (ls s hand) w cur qs _ _ _ t3 t5 t4
    refine wp_mono (wp_settle (cfg := cfg) (env := env) (hand := hand) hs1.inv hsafe) ?_
      (fun _ _ hE => hE)
    rintro un s2 ⟨hf2, hfc2, hq2, evs2, hsim2, hscr⟩
    refine wp_mono (wp_rejectAll (M := cfg.maxFailures) (hand := hand) hsim2.inv ?_) ?_
      (fun _ _ hE => hE)
    · rw [hq2]; exact hscr.un_hopeless
    · rintro _ s3 ⟨hf3, hfc3, hq3, hsim3⟩
      have hf := hf2.trans hf3
      refine ⟨⟨hf.timers, hf.live, hf.stats, hf.frozen, hf.allocs⟩, hf.workers, _,
        (hs1.trans (hsim2.trans hsim3)), ?_⟩
      rw [show reg s3.queue = reg q' from by rw [hq3]; exact hq2]
      exact .mk hscr (hfc3.trans hfc2)
  cases cur with
  | none => exact key
  | some r => exact key

/-- Events of the expiry of several workers. -/
inductive ExpireAll (M : Nat) : (Nat → Nat) → List Worker → List Ev → Prop
  | nil {fc : Nat → Nat} : ExpireAll M fc [] []
  | cons {w : Worker} {ws : List Worker} {fc fc' : Nat → Nat} {g : Multiset Worker} {a b : List Ev}
      (h : ExpireScript M fc fc' g w a) (ht : ExpireAll M fc' ws b) :
    ExpireAll M fc (w :: ws) (a ++ b)

/-- The registry after removing workers one by one. -/
def removeAll : List Worker → List Worker → List Worker
  | [], ws => ws
  | x :: xs, ws => removeAll xs (regRemove x ws)

theorem wp_expireWorkers {cfg : HConfig} {env : Env} : ∀ {xs : List Worker} {s : HState Q}
    {hand : Multiset Req} (_ : HInv s) (_ : xs.Nodup) (_ : ∀ w ∈ xs, w ∈ s.workers),
    wp (expireWorkers cfg env xs) s
      (fun _ s' => ExpFrame s s' ∧ s'.workers = removeAll xs s.workers ∧
        ∃ evs, Sim cfg.maxFailures s hand evs s' hand ∧
          ExpireAll cfg.maxFailures s.fc xs evs) NoErr := by
  intro xs
  induction xs with
  | nil =>
    intro s hand h _ _
    exact ⟨⟨rfl, rfl, rfl, rfl, rfl⟩, rfl, [], Sim.refl h, .nil⟩
  | cons w ws ih =>
    intro s hand h hn hm
    simp only [expireWorkers, wp_bind]
    refine wp_mono (wp_expireWorker (hand := hand) h (hm w (by simp))) ?_ (fun _ _ hE => hE)
    rintro _ s1 ⟨hf1, hw1, evs1, hsim1, hscr1⟩
    rw [List.nodup_cons] at hn
    have hm1 : ∀ x ∈ ws, x ∈ s1.workers := by
      intro x hx
      rw [hw1]
      have hp := regRemove_perm h.addr_nodup (hm w (by simp))
      have : x ∈ w :: regRemove w s.workers := hp.mem_iff.1 (hm x (List.mem_cons_of_mem _ hx))
      rcases List.mem_cons.1 this with rfl | h'
      · exact absurd hx hn.1
      · exact h'
    refine wp_mono (ih (hand := hand) hsim1.inv hn.2 hm1) ?_ (fun _ _ hE => hE)
    rintro _ s2 ⟨hf2, hw2, evs2, hsim2, hscr2⟩
    exact ⟨⟨hf2.timers.trans hf1.timers, hf2.live.trans hf1.live, hf2.stats.trans hf1.stats,
      hf2.frozen.trans hf1.frozen, hf2.allocs.trans hf1.allocs⟩, by rw [hw2, hw1]; rfl, _,
      hsim1.trans hsim2, .cons hscr1 hscr2⟩

/-! ## Gauges -/

open Classical in
theorem wp_countIdle {s : HState Q} (h : HInv s) : ∀ {ws : List Worker}
    (_ : ∀ w ∈ ws, w ∈ s.workers) {E},
    wp (countIdle ws) s
      (fun n s' => s' = s ∧ n = ws.countP (fun w => decide (∀ r, (w, r) ∉ busy s.queue))) E := by
  intro ws
  induction ws with
  | nil => intro _ E; exact ⟨rfl, rfl⟩
  | cons w t ih =>
    intro hm E
    simp only [countIdle, wp_bind]
    refine wp_qCurrent h (hm w (by simp)) ?_ ?_
    · intro hidle
      refine wp_mono (ih (fun x hx => hm x (List.mem_cons_of_mem _ hx))) ?_ (fun _ _ hE => hE)
      rintro n s1 ⟨rfl, hn⟩
      simp only [wp_pure, List.countP_cons, hn]
      simp [hidle]
    · intro r hb
      refine wp_mono (ih (fun x hx => hm x (List.mem_cons_of_mem _ hx))) ?_ (fun _ _ hE => hE)
      rintro n s1 ⟨rfl, hn⟩
      simp only [wp_pure, List.countP_cons, hn]
      have : ¬ ∀ r, (w, r) ∉ busy s1.queue := fun hx => hx r hb
      simp [this]

open Classical in
/-- Idle and busy workers add up. -/
theorem countIdle_add {s : HState Q} (h : HInv s) :
    s.workers.countP (fun w => decide (∀ r, (w, r) ∉ busy s.queue)) + (busy s.queue).card
      = s.workers.length := by
  have hbn : ((busy s.queue).map (·.1)).Nodup := by
    have := busy_nodup h.qinv
    rw [← Function.comp_def (f := fun w : Worker => w.addr) (g := fun p : Worker × Req => p.1),
      ← Multiset.map_map] at this
    exact Multiset.Nodup.of_map _ this
  have hwn : (s.workers : Multiset Worker).Nodup := by
    have := h.addr_nodup
    exact Multiset.coe_nodup.2 (List.Nodup.of_map _ this)
  have hfil : (s.workers : Multiset Worker).filter (fun w => ¬ ∀ r, (w, r) ∉ busy s.queue)
      = (busy s.queue).map (·.1) := by
    refine (Multiset.Nodup.ext (hwn.filter _) hbn).2 ?_
    intro w
    simp only [Multiset.mem_filter, Multiset.mem_map, Multiset.mem_coe]
    constructor
    · rintro ⟨-, hx⟩
      have : ∃ r, (w, r) ∈ busy s.queue := by
        by_contra hne
        exact hx (fun r hr => hne ⟨r, hr⟩)
      obtain ⟨r, hr⟩ := this
      exact ⟨_, hr, rfl⟩
    · rintro ⟨p, hp, rfl⟩
      exact ⟨h.mem_reg.2 (busy_reg h.qinv p hp), fun hx => hx p.2 hp⟩
  have hcard := congrArg Multiset.card hfil
  rw [Multiset.card_map] at hcard
  rw [← hcard, ← Multiset.countP_eq_card_filter, Multiset.coe_countP]
  have := List.length_eq_countP_add_countP (l := s.workers)
    (fun w => decide (∀ r, (w, r) ∉ busy s.queue))
  rw [this]
  congr 2
  funext w
  simp

/-- Statistics after a timer event. -/
structure Gauges (s' : HState Q) (old : Stats) : Prop where
  evaluated : s'.stats.evaluated = old.evaluated
  failed : s'.stats.failed = old.failed
  queued : s'.stats.queued = (que s'.queue).card
  workerCount : s'.stats.workerCount = s'.workers.length
  idle : s'.stats.idle + (busy s'.queue).card = s'.workers.length
  inProgress : s'.stats.inProgress = some (busy s'.queue).card

theorem wp_updateGauges {s : HState Q} (h : HInv s) {E} :
    wp (updateGauges : HM Q Unit) s
      (fun _ s' => s' = { s with stats := s'.stats } ∧ Gauges s' s.stats) E := by
  simp only [updateGauges, wp_bind, wp_get]
  refine wp_mono (wp_countIdle h (fun _ hx => hx)) ?_ (fun _ _ hE => hE)
  rintro n s1 ⟨rfl, hn⟩
  simp only [wp_modify]
  have hadd := countIdle_add h
  rw [← hn] at hadd
  refine ⟨by trivial, ⟨rfl, rfl, ?_, rfl, hadd, ?_⟩⟩
  · exact queued_card h.qinv
  · show some (s1.workers.length - n) = some (busy s1.queue).card
    congr 1
    omega

/-! ## The timer event -/

/-- What a timer event does. -/
structure TimerCase (cfg : HConfig) (time : Int) (s s' : HState Q) (xs : List Worker)
    (evs : List Ev) : Prop where
  ticked : ∀ w ∈ s.workers, Ticked cfg time s s' (w ∈ xs) w
  others : ∀ x : Worker, x.addr ∉ s.workers.map (·.addr) →
    s'.timers.getD x 0 = s.timers.getD x 0 ∧ s'.live x.addr = s.live x.addr
  sub : xs.Sublist s.workers
  workers : s'.workers = removeAll xs s.workers
  script : ExpireAll cfg.maxFailures s.fc xs evs
  gauges : Gauges s' s.stats
  frozen : s'.frozen = s.frozen
  allocs : s'.allocs = s.allocs

/-- The abnormal outcomes of a timer event. -/
def TimerErr (data : List String) (e : Err) : Prop :=
  (data = [] ∧ e = .ub .pastEnd) ∨
  ∃ f rest x, data = f :: rest ∧ stoll f = .error x ∧ e = .exn x

theorem wp_processTimer {cfg : HConfig} {env : Env} {s : HState Q} {hand : Multiset Req}
    {data : List String} (h : HInv s) :
    wp (processTimer cfg env data) s
      (fun _ s' => ∃ f rest time xs evs, data = f :: rest ∧ stoll f = .ok time ∧
        Sim cfg.maxFailures s hand evs s' hand ∧ TimerCase cfg time s s' xs evs)
      (fun e _ => TimerErr data e) := by
  cases data with
  | nil => exact Or.inl ⟨rfl, rfl⟩
  | cons f rest =>
    simp only [processTimer, wp_bind, wp_liftE]
    cases ht : stoll f with
    | error x => exact Or.inr ⟨f, rest, x, rfl, ht, rfl⟩
    | ok time =>
      simp only [wp_bind, wp_get]
      refine wp_mono (wp_tickWorkers h.addr_nodup) ?_ (fun _ _ hE => hE)
      rintro xs s1 ⟨htf, hsub, htick, hoth⟩
      have hinv1 : HInv s1 := h.of_eq (by rw [htf]) (by rw [htf])
      have hw1 : s1.workers = s.workers := by rw [htf]
      have hn : xs.Nodup := hsub.nodup (List.Nodup.of_map _ h.addr_nodup)
      refine wp_mono (wp_expireWorkers (cfg := cfg) (env := env) (hand := hand) hinv1 hn
        (fun w hw => by rw [hw1]; exact hsub.subset hw)) ?_ (fun _ _ hE => hE.elim)
      rintro _ s2 ⟨hf2, hw2, evs, hsim2, hscr⟩
      refine wp_mono (wp_updateGauges hsim2.inv) ?_ (fun _ _ hE => hE)
      rintro _ s3 ⟨h3, hg⟩
      have hls : ls s1 hand = ls s hand := by rw [htf]; rfl
      have hfc1 : s1.fc = s.fc := by rw [htf]
      have htm : s3.timers = s1.timers := by rw [h3]; exact hf2.timers
      have hlv : s3.live = s1.live := by rw [h3]; exact hf2.live
      refine ⟨f, rest, time, xs, evs, rfl, ht, ⟨hsim2.inv.of_eq (by rw [h3]) (by rw [h3]), ?_, ?_⟩,
        ?_, ?_, hsub, ?_, hfc1 ▸ hscr, ?_, ?_, ?_⟩
      · have := hsim2.steps
        rw [hls] at this
        rw [h3]; exact this
      · rw [h3]
        have : s1.outs = s.outs := by rw [htf]
        rw [← this]; exact hsim2.outs
      · unfold Ticked at htick ⊢
        rw [htm, hlv]; exact htick
      · rw [htm, hlv]; exact hoth
      · rw [h3, ← hw1]; exact hw2
      · have hst : s2.stats = s.stats := by rw [hf2.stats, htf]
        rw [← hst]; exact hg
      · rw [h3]; show s2.frozen = _; rw [hf2.frozen, htf]
      · rw [h3]; show s2.allocs = _; rw [hf2.allocs, htf]

end Broker
