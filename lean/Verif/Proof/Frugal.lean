import Verif.Proof.Volume
import Verif.Proof.SingleLaws
import Verif.Proof.PolicyLaws

/-!
# Queue managers that keep what the remaining workers can do

A manager with one queue gives back only those waiting jobs of a worker that leaves which nobody
else can process.  Such jobs leave the broker for good.
-/

set_option linter.unusedSectionVars false

namespace Broker

open QueueManager LawfulQM Spec

/-- Managers that give back only waiting jobs nobody else can process. -/
class FrugalQM (Q : Type) [QueueManager Q] [LawfulQM Q] : Prop where
  orphans : ∀ {q : Q} {w : Worker} {qs : List Req} {q' : Q}, Inv q → w ∈ reg q →
    workerTerminated q w = .ok ((currentRequest q w).1.toList ++ qs, q') →
    ∀ r ∈ qs, Hopeless (reg q') r

theorem single_orphans {q : Single} {w : Worker} {qs : List Req} {q' : Single} (h : q.Inv)
    (heq : q.workerTerminated w = .ok ((q.currentRequest w).1.toList ++ qs, q')) :
    ∀ r ∈ qs, ∀ x ∈ q'.workers, x.checkHeaders r.headers = .ok false := by
  have hwf : ∀ x ∈ q.workers.filter (fun x => x.addr ≠ w.addr), x.WF :=
    fun x hx => h.wf x (List.mem_of_mem_filter hx)
  obtain ⟨out, keep, g1, -, g3, -⟩ := Single.splitJobs_spec (l := q.jobs)
    (fun e he => Single.isAssignable_total (h.safe he) hwf)
  have h1 : q.workerTerminated w = .ok ((q.currentRequest w).1.toList ++ out,
      ⟨keep, q.current.erase w, q.workers.filter (fun x => x.addr ≠ w.addr)⟩) := by
    simp only [Single.workerTerminated, g1, Single.currentRequest]
    rfl
  rw [h1] at heq
  injection heq with heq
  injection heq with h2 h3
  have h4 := List.append_cancel_left h2
  subst h4 h3
  exact g3

instance : FrugalQM Single where
  orphans {q w qs q'} h _ heq := by
    have h1 := single_orphans (q := q) (q' := q') h heq
    intro r hr x hx
    exact h1 r hr x (Multiset.mem_coe.1 hx)

instance {π : Policy} [π.Lawful] : FrugalQM (SingleOf π) where
  orphans {q w qs q'} h _ heq := by
    have h1 := single_orphans (q := q) (q' := q') h heq
    intro r hr x hx
    exact h1 r hr x (Multiset.mem_coe.1 hx)

/-- Events of the expiry of one worker, as `ExpireScript`, and what is given back is for nobody. -/
inductive LeaveScript (M : Nat) (reg' : Multiset Worker) (w : Worker) : List Ev → Prop
  | mk {fc : Nat → Nat} {cur : Option Req} {qs : List Req} {evs : List Ev} {un : List Req}
      (h : SettleScript M fc reg' (cur.toList ++ qs) evs un)
      (ho : ∀ r ∈ qs, Hopeless reg' r) :
    LeaveScript M reg' w (.expire w cur qs :: (evs ++ un.map (fun r => .giveUp r (diededMsg w))))

/-! ## Counting -/

theorem SettleScript.moves {M : Nat} {fc : Nat → Nat} {g : Multiset Worker}
    {rs un : List Req} {evs : List Ev} (h : SettleScript M fc g rs evs un) :
    ∀ x ∈ evs, (∀ w c, x ≠ .register w c) ∧ ∀ w c q, x ≠ .expire w c q := by
  induction h <;> simp_all

/-- A message that tells the monitor about a job taken from a worker. -/
def isAborted (o : Msg) : Bool := o.key == "monitor" && o.data.drop 1 == ["ABORTED"]

/-- Number of such messages of an event. -/
def Ev.aborts (e : Ev) : Nat := e.msgs.countP isAborted

/-- Number of requests received from clients that the machine holds. -/
def heldFull (L : LS) : Nat :=
  L.busy.countP (fun p => p.2.complete = true) + L.que.countP (fun r => r.complete = true)
    + L.hand.countP (fun r => r.complete = true)

theorem SettleScript.un_complete {M : Nat} {fc : Nat → Nat} {g : Multiset Worker}
    {rs un : List Req} {evs : List Ev} (h : SettleScript M fc g rs evs un) :
    ∀ r ∈ un, r.complete = true := by
  induction h <;> simp_all

open Classical in
/-- Jobs nobody can process leave. -/
theorem SettleScript.leave {M : Nat} {fc : Nat → Nat} {g : Multiset Worker}
    {rs un : List Req} {evs : List Ev} (h : SettleScript M fc g rs evs un) :
    ∀ {L L' : LS}, LSteps M L evs L' → L.reg = g →
      L'.reg = g ∧
      heldFull L' + rs.countP (fun r => decide (Hopeless g r ∧ r.complete = true)) ≤ heldFull L + un.length ∧
      (evs.map Ev.aborts).sum + rs.countP (fun r => decide (Hopeless g r ∧ r.complete = true)) ≤ rs.length := by
  have hno : ∀ {r : Req}, (∃ w ∈ g, w.Can r.headers) →
      ¬ (Hopeless g r ∧ r.complete = true) := by
    rintro r ⟨w, hw, hc⟩ ⟨hh, -⟩
    have := hh w hw
    rw [hc] at this
    cases this
  have hle : ∀ (r : Req) (l : List Req), (r :: l).countP (fun r => decide (Hopeless g r ∧ r.complete = true))
      ≤ l.countP (fun r => decide (Hopeless g r ∧ r.complete = true)) + 1 := by
    intro r l
    rw [List.countP_cons]
    split <;> omega
  have ab1 : ∀ (r : Req) (t : String), (Ev.giveUp r t).aborts = 0 := fun r t => by
    simp [Ev.aborts, Ev.msgs, isAborted, failMsg, keyNotifier]
  have ab2 : ∀ (j : String), (Ev.say (monMsg j "FAILED")).aborts = 0 := fun j => by
    simp [Ev.aborts, Ev.msgs, isAborted, monMsg]
  have ab3 : ∀ (j : String), (Ev.say (monMsg j "ABORTED")).aborts = 1 := fun j => by
    simp [Ev.aborts, Ev.msgs, isAborted, monMsg, keyMonitor]
  have ab4 : ∀ (w : Worker) (r : Req), (Ev.send w r).aborts = 0 := fun w r => by
    simp [Ev.aborts, Ev.msgs, isAborted, sendMsg, keyWorkers]
  have ab5 : ∀ (r : Req), (Ev.park r).aborts = 0 := fun r => by
    simp [Ev.aborts, Ev.msgs]
  induction h with
  | nil =>
    intro L L' hl hg
    cases hl
    exact ⟨hg, by simp, by simp⟩
  | adopted hc h ih =>
    intro L L' hl hg
    cases hl with
    | cons a hl =>
      cases a with
      | giveUp r t hnd hh =>
        cases hl with
        | cons a hl =>
          cases a
          obtain ⟨h1, h2, h3⟩ := ih hl hg
          rw [List.countP_cons_of_neg (by simp [hc])]
          refine ⟨h1, ?_, ?_⟩
          · simp only [heldFull, hh] at h2 ⊢
            rw [Multiset.countP_cons_of_neg _ (by simp [hc])]
            omega
          · simp only [List.map_cons, List.sum_cons, ab1, ab2, List.length_cons]
            omega
  | exhausted hc hf h ih =>
    intro L L' hl hg
    cases hl with
    | cons a hl =>
      cases a with
      | giveUp r t hnd hh =>
        cases hl with
        | cons a hl =>
          cases a
          obtain ⟨h1, h2, h3⟩ := ih hl hg
          refine ⟨h1, (Nat.add_le_add_left (hle _ _) _).trans ?_,
            (Nat.add_le_add_left (hle _ _) _).trans ?_⟩
          · simp only [heldFull, hh, Multiset.countP_cons, hc, if_true] at h2 ⊢
            omega
          · simp only [List.map_cons, List.sum_cons, ab1, ab2, List.length_cons]
            omega
  | resent hc hf h ih =>
    intro L L' hl hg
    cases hl with
    | cons a hl =>
      cases a with
      | send w r hnd hh hw hidle hcan =>
        cases hl with
        | cons a hl =>
          cases a
          obtain ⟨h1, h2, h3⟩ := ih hl hg
          rw [List.countP_cons_of_neg (by simpa using hno ⟨_, hg ▸ hw, hcan⟩)]
          refine ⟨h1, ?_, ?_⟩
          · simp only [heldFull, hh, Multiset.countP_cons, hc, if_true] at h2 ⊢
            omega
          · simp only [List.map_cons, List.sum_cons, ab3, ab4, List.length_cons]
            omega
  | parked hc hf h ih =>
    intro L L' hl hg
    cases hl with
    | cons a hl =>
      cases a with
      | park r hnd hh hcan =>
        cases hl with
        | cons a hl =>
          cases a
          obtain ⟨h1, h2, h3⟩ := ih hl hg
          rw [List.countP_cons_of_neg (by simpa using hno (hg ▸ hcan))]
          refine ⟨h1, ?_, ?_⟩
          · simp only [heldFull, hh, Multiset.countP_cons, hc, if_true] at h2 ⊢
            omega
          · simp only [List.map_cons, List.sum_cons, ab3, ab5, List.length_cons]
            omega
  | stuck hc hf hh h ih =>
    intro L L' hl hg
    cases hl with
    | cons a hl =>
      cases a
      obtain ⟨h1, h2, h3⟩ := ih hl hg
      refine ⟨h1, (Nat.add_le_add_left (hle _ _) _).trans ?_,
        (Nat.add_le_add_left (hle _ _) _).trans ?_⟩
      · simp only [List.length_cons]
        omega
      · simp only [List.map_cons, List.sum_cons, ab2, List.length_cons]
        omega

theorem giveUps_leave {M : Nat} {t : String} : ∀ {un : List Req} {L L' : LS},
    (∀ r ∈ un, r.complete = true) → LSteps M L (un.map (fun r => Ev.giveUp r t)) L' →
    L'.reg = L.reg ∧ heldFull L' + un.length = heldFull L := by
  intro un
  induction un with
  | nil => intro L L' _ h; cases h; simp
  | cons r un ih =>
    intro L L' hc h
    cases h with
    | cons a hl =>
      cases a with
      | giveUp r t hnd hh =>
        obtain ⟨h1, h2⟩ := ih (fun x hx => hc x (List.mem_cons_of_mem _ hx)) hl
        refine ⟨h1, ?_⟩
        simp only [heldFull, hh, List.length_cons, Multiset.countP_cons, hc r (by simp), if_true]
          at h2 ⊢
        omega

/-- What the monitor is told is paid for by the workers and jobs that leave, and what it is told
    about jobs taken from workers by the workers. -/
def Covered (L : LS) (evs : List Ev) (L' : LS) : Prop :=
  (evs.map (volCost "monitor")).sum + heldFull L' + L'.reg.card ≤ heldFull L + L.reg.card ∧
  (evs.map Ev.aborts).sum + L'.reg.card ≤ L.reg.card

theorem Covered.trans {L L' L'' : LS} {a b : List Ev} (h1 : Covered L a L') (h2 : Covered L' b L'') :
    Covered L (a ++ b) L'' := by
  unfold Covered at *
  simp only [List.map_append, List.sum_append]
  omega

open Classical in
/-- What the monitor is told when a worker expires is paid for by the worker and by the jobs that
    leave with it. -/
theorem LeaveScript.pay {M : Nat} {g : Multiset Worker} {w : Worker} {evs : List Ev}
    (h : LeaveScript M g w evs) {L L' : LS} (hl : LSteps M L evs L') (hg : L'.reg = g)
    (hq : ∀ r ∈ L.que, r.complete = true) : Covered L evs L' := by
  cases h with
  | mk h ho =>
    rename_i fc cur qs e un
    have hn := h.notes.1
    unfold Covered
    have h2 : ∀ (t : String) (l : List Req), ((l.map (fun r => Ev.giveUp r t)).map
        (volCost "monitor")).sum = 0 := by
      intro t l; induction l <;> simp_all [volCost, Ev.msgs, failMsg, keyNotifier]
    have h3 : ∀ (t : String) (l : List Req), ((l.map (fun r => Ev.giveUp r t)).map
        Ev.aborts).sum = 0 := by
      intro t l; induction l <;> simp_all [Ev.aborts, Ev.msgs, isAborted, failMsg, keyNotifier]
    simp only [List.map_cons, List.sum_cons, List.map_append, List.sum_append, hn, h2, h3]
    have h0 : volCost "monitor" (.expire w cur qs) = 0 := by simp [volCost, Ev.msgs]
    have h0' : (Ev.expire w cur qs).aborts = 0 := by simp [Ev.aborts, Ev.msgs]
    rw [h0, h0']
    cases hl with
    | cons a hl =>
      obtain ⟨L2, hl1, hl2⟩ := hl.append_inv
      obtain ⟨u1, u2⟩ := giveUps_leave h.un_complete hl2
      cases a with
      | expire _ _ _ g' b q hg' hb hq' =>
        have hreg : g' = g := by
          have : ∀ {es : List Ev} {A B : LS}, LSteps M A es B →
              (∀ x ∈ es, (∀ w c, x ≠ .register w c) ∧ ∀ w c q, x ≠ .expire w c q) →
              B.reg = A.reg := by
            intro es A B hs hx
            induction hs with
            | nil => rfl
            | cons a _ ih =>
              rw [ih (fun x h => hx x (List.mem_cons_of_mem _ h))]
              exact a.reg_eq_of_move (hx _ List.mem_cons_self).1 (hx _ List.mem_cons_self).2
          have hmv : ∀ x ∈ e, (∀ w c, x ≠ .register w c) ∧ ∀ w c q, x ≠ .expire w c q := by
            exact h.moves
          have := this hl1 hmv
          rw [← hg, u1, this]
        subst hreg
        obtain ⟨s1, s2, s3⟩ := h.leave hl1 rfl
        have hqc : ∀ r ∈ qs, r.complete = true := fun r hr => hq r (by rw [hq']; simp [hr])
        have hcnt : qs.length ≤ (cur.toList ++ qs).countP
            (fun r => decide (Hopeless g' r ∧ r.complete = true)) := by
          rw [List.countP_append, List.countP_eq_length (l := qs).2
            (fun r hr => decide_eq_true ⟨ho r hr, hqc r hr⟩)]
          omega
        generalize (cur.toList ++ qs).countP
          (fun r => decide (Hopeless g' r ∧ r.complete = true)) = K at s2 s3 hcnt
        have hc : (cur.map (fun r => (w, r))).toList.countP (fun p => p.2.complete = true)
            = cur.toList.countP (fun r => r.complete = true) := by
          cases cur <;> simp [List.countP_cons]
        have hc1 : cur.toList.length ≤ 1 := by cases cur <;> simp
        rw [hg]
        simp only [heldFull, hb, hq', hg', Multiset.countP_add, Multiset.coe_countP, hc,
          List.countP_append, List.length_append, Multiset.card_cons] at s2 s3 u2 ⊢
        omega

/-! ## The handler -/

variable {Q : Type} [QueueManager Q] [LawfulQM Q] [FrugalQM Q]

theorem wp_leave {cfg : HConfig} {env : Env} {s : HState Q} {hand : Multiset Req}
    {w : Worker} (h : HInv s) (hli : LInv cfg.maxFailures (ls s hand)) (hw : w ∈ s.workers) :
    wp (expireWorker cfg env w) s
      (fun _ s' => s'.workers = regRemove w s.workers ∧
        ∃ evs, Sim cfg.maxFailures s hand evs s' hand ∧ Covered (ls s hand) evs (ls s' hand)) NoErr := by
  have hwr := h.mem_reg.1 hw
  obtain ⟨c1, c2⟩ := LawfulQM.current h.qinv hwr
  obtain ⟨cur, qs, q', t1, t2, t3, t4, t5⟩ := LawfulQM.terminated h.qinv hwr
  have hcur : (currentRequest s.queue w).1 = cur := by
    cases cur with
    | some r => exact (c2 r).2 (by rw [t5]; simp)
    | none =>
      cases hc : (currentRequest s.queue w).1 with
      | none => rfl
      | some r =>
        exfalso
        have hm := (c2 r).1 hc
        rw [t5] at hm
        have hm' : (w, r) ∈ busy q' := by simpa using hm
        have hwq := busy_reg t2 _ hm'
        have hn := reg_nodup h.qinv
        rw [t3, Multiset.map_cons, Multiset.nodup_cons] at hn
        exact hn.1 (Multiset.mem_map.2 ⟨w, hwq, rfl⟩)
  have horph : ∀ r ∈ qs, Hopeless (reg q') r :=
    FrugalQM.orphans h.qinv hwr (by rw [hcur]; exact t1)
  have hsafe : ∀ r ∈ cur.toList ++ qs, SafeHeaders r.headers := by
    intro r hr
    rcases List.mem_append.1 hr with hr | hr
    · have : cur = some r := by simpa using hr
      exact h.busy_safe (w := w) (by rw [t5, this]; simp)
    · exact h.que_safe (by rw [t4]; simp [hr])
  simp only [expireWorker, wp_bind, wp_modify, qCurrent, wp_get, wp_pure, c1, hcur]
  have key : wp (do
        let requests ← qTerminated w
        let unassigned ← settleRequests cfg env requests
        rejectAll ("Worker " ++ w.getDescription ++ " dieded") unassigned)
      ({ s with workers := regRemove w s.workers, fc := bumpOpt s.fc cur } : HState Q)
      (fun _ s' => s'.workers = regRemove w s.workers ∧
        ∃ evs, Sim cfg.maxFailures s hand evs s' hand ∧ Covered (ls s hand) evs (ls s' hand)) NoErr := by
    simp only [wp_bind, qTerminated, wp_get, wp_liftE, t1, wp_modify, wp_pure]
    have hp := regRemove_perm h.addr_nodup hw
    have hreg : (regRemove w s.workers : Multiset Worker) = reg q' := by
      have : (s.workers : Multiset Worker) = w ::ₘ (regRemove w s.workers : Multiset Worker) := by
        simpa using hp
      rw [h.reg_eq, t3] at this
      exact ((Multiset.cons_inj_right _).1 this).symm
    have hs1 : Sim cfg.maxFailures s hand [.expire w cur qs]
        { s with workers := regRemove w s.workers, fc := bumpOpt s.fc cur, queue := q' }
        (((cur.toList ++ qs : List Req) : Multiset Req) + hand) := by
      refine ⟨⟨t2, hreg, ?_⟩, .single ?_, by simp [Ev.msgs]⟩
      · intro p hp
        exact h.busyCan p (by rw [t5]; exact Multiset.mem_add.2 (Or.inr hp))
      · exact LStep.expire (ls s hand) w cur qs _ _ _ t3 t5 t4
    refine wp_mono (wp_settle (cfg := cfg) (env := env) (hand := hand) hs1.inv hsafe) ?_
      (fun _ _ hE => hE)
    rintro un s2 ⟨hf2, hfc2, hq2, evs2, hsim2, hscr⟩
    refine wp_mono (wp_rejectAll (M := cfg.maxFailures) (hand := hand) hsim2.inv ?_) ?_
      (fun _ _ hE => hE)
    · rw [hq2]; exact hscr.un_hopeless
    · rintro _ s3 ⟨hf3, hfc3, hq3, hsim3⟩
      have hf := hf2.trans hf3
      have hsim := hs1.trans (hsim2.trans hsim3)
      refine ⟨hf.workers, _, hsim, ?_⟩
      have hreg3 : reg s3.queue = reg q' := by rw [hq3]; exact hq2
      exact (LeaveScript.mk hscr horph).pay hsim.steps hreg3 hli.queC
  cases cur with
  | none => exact key
  | some r => exact key

theorem wp_leaveAll {cfg : HConfig} {env : Env} : ∀ {xs : List Worker} {s : HState Q}
    {hand : Multiset Req} (_ : HInv s) (_ : LInv cfg.maxFailures (ls s hand)) (_ : xs.Nodup) (_ : ∀ w ∈ xs, w ∈ s.workers),
    wp (expireWorkers cfg env xs) s
      (fun _ s' => ∃ evs, Sim cfg.maxFailures s hand evs s' hand ∧
        Covered (ls s hand) evs (ls s' hand)) NoErr := by
  intro xs
  induction xs with
  | nil =>
    intro s hand h _ _ _
    exact ⟨[], Sim.refl h, by simp [Covered]⟩
  | cons w ws ih =>
    intro s hand h hli hn hm
    simp only [expireWorkers, wp_bind]
    refine wp_mono (wp_leave (hand := hand) h hli (hm w (by simp))) ?_ (fun _ _ hE => hE)
    rintro _ s1 ⟨hw1, evs1, hsim1, hscr1⟩
    rw [List.nodup_cons] at hn
    have hm1 : ∀ x ∈ ws, x ∈ s1.workers := by
      intro x hx
      rw [hw1]
      have hp := regRemove_perm h.addr_nodup (hm w (by simp))
      have : x ∈ w :: regRemove w s.workers := hp.mem_iff.1 (hm x (List.mem_cons_of_mem _ hx))
      rcases List.mem_cons.1 this with rfl | h'
      · exact absurd hx hn.1
      · exact h'
    refine wp_mono (ih (hand := hand) hsim1.inv (hsim1.steps.linv cfg.maxFailures_lt hli) hn.2 hm1) ?_ (fun _ _ hE => hE)
    rintro _ s2 ⟨evs2, hsim2, hscr2⟩
    exact ⟨_, hsim1.trans hsim2, hscr1.trans hscr2⟩

/-- A timer event. -/
theorem wp_timer_leave {cfg : HConfig} {env : Env} {s : HState Q}
    {data : List String} (h : HInv s) (hli : LInv cfg.maxFailures (ls s 0)) :
    wp (processTimer cfg env data) s
      (fun _ s' => ∃ evs, Sim cfg.maxFailures s 0 evs s' 0 ∧ Covered (ls s 0) evs (ls s' 0))
      (fun _ _ => True) := by
  cases data with
  | nil => trivial
  | cons f rest =>
    simp only [processTimer, wp_bind, wp_liftE]
    cases ht : stoll f with
    | error x => trivial
    | ok time =>
      simp only [wp_get]
      refine wp_mono (wp_tickWorkers h.addr_nodup) ?_ (fun _ _ hE => hE)
      rintro xs s1 ⟨htf, hsub, htick, hoth⟩
      have hinv1 : HInv s1 := h.of_eq (by rw [htf]) (by rw [htf])
      have hw1 : s1.workers = s.workers := by rw [htf]
      have hls : ls s1 0 = ls s 0 := by rw [htf]; rfl
      have hn : xs.Nodup := hsub.nodup (List.Nodup.of_map _ h.addr_nodup)
      refine wp_mono (wp_leaveAll (cfg := cfg) (env := env) (hand := 0) hinv1 (hls ▸ hli) hn
        (fun w hw => by rw [hw1]; exact hsub.subset hw)) ?_ (fun _ _ hE => hE.elim)
      rintro _ s2 ⟨evs, hsim2, hscr⟩
      refine wp_mono (wp_updateGauges hsim2.inv) ?_ (fun _ _ hE => hE)
      rintro _ s3 ⟨h3, hg⟩
      refine ⟨evs, ⟨hsim2.inv.of_eq (by rw [h3]) (by rw [h3]), ?_, ?_⟩, ?_⟩
      · have := hsim2.steps
        rw [hls] at this
        rw [h3]; exact this
      · rw [h3]
        have : s1.outs = s.outs := by rw [htf]
        rw [← this]; exact hsim2.outs
      · rw [hls] at hscr
        rw [h3]; exact hscr

theorem timer_leave {cfg : HConfig} {env : Env} {m : Msg} {s s' : HState Q} (h : HInv s)
    (hli : LInv cfg.maxFailures (ls s 0)) (hk : m.key = keyTimer) (hs : step cfg env m s = .ok () s') :
    ∃ evs, s'.outs = msgsOf evs ∧ Covered (ls s 0) evs (ls s' 0) := by
  have h0 : HInv ({ s with outs := [] } : HState Q) := h.of_eq rfl rfl
  obtain ⟨key, ident, data⟩ := m
  have hk : key = keyTimer := hk
  subst hk
  have hs' : processTimer cfg env data { s with outs := [] } = .ok () s' := hs
  obtain ⟨evs, hsim, hscr⟩ := wp_ok (wp_timer_leave (cfg := cfg) (env := env) h0 hli) hs'
  exact ⟨evs, by simpa using hsim.outs, hscr⟩

/-! ## Executions -/

/-- Weights of requests received from clients. -/
def fullW : Weights where
  b _ r := if r.complete = true then 1 else 0
  q _ r := if r.complete = true then 1 else 0
  h _ r := if r.complete = true then 1 else 0

theorem sum_ite_countP {α : Type} (p : α → Prop) [DecidablePred p] (m : Multiset α) :
    (m.map (fun x => if p x then 1 else 0)).sum = m.countP p := by
  induction m using Multiset.induction_on with
  | empty => simp
  | cons a t ih =>
    rw [Multiset.map_cons, Multiset.sum_cons, ih, Multiset.countP_cons, Nat.add_comm]

theorem pot_full (L : LS) : pot fullW L = heldFull L := by
  simp only [pot, fullW, heldFull]
  rw [sum_ite_countP (fun p : Worker × Req => p.2.complete = true),
    sum_ite_countP (fun r : Req => r.complete = true), sum_ite_countP (fun r : Req => r.complete = true)]

/-- Requests given up. -/
def quitCost : Ev → Nat
  | .giveUp r _ => if r.complete = true then 1 else 0
  | _ => 0

/-- Requests accepted. -/
def takeGain : Ev → Nat
  | .accept _ => 1
  | _ => 0

theorem fullLaws {M : Nat} : WLaws M fullW quitCost takeGain where
  say _ := Nat.zero_le _
  drop := Nat.zero_le _
  accept r hc := by simp [fullW, takeGain, quitCost, hc]
  register0 _ := Nat.zero_le _
  register w r hc := by simp [fullW, quitCost, takeGain, hc]
  send w r n hc hn := by simp [fullW, quitCost, takeGain]
  park r n hc hn := by simp [fullW, quitCost, takeGain]
  pull w r n hc hn := by simp [fullW, quitCost, takeGain]
  resend w r _ _ := Nat.zero_le _
  done w r n hn := Nat.zero_le _
  failed w r t n hn := Nat.zero_le _
  cancel w r n hn := by simp [fullW, quitCost, takeGain]
  expireCur r n hn := Nat.le_refl _
  expireQue r n hc hn := Nat.le_refl _
  expire _ _ _ := Nat.zero_le _
  giveUp _ _ _ _ := Nat.le_refl _

/-- What a message that is not one of the timer adds. -/
theorem full_step {cfg : HConfig} {env : Env} {m : Msg} {s s' : HState Q} {evs : List Ev}
    (hi : StepInfo cfg env m s s' evs) (hk : m.key ≠ keyTimer) :
    (evs.map (volCost "monitor")).sum + (evs.map takeGain).sum ≤ (evs.map quitCost).sum
        + oneIf "clients" "eval" m + oneIf "workers" "progress" m ∧
      s'.workers.length ≤ s.workers.length + oneIf "workers" "init" m := by
  have hh : ∀ x : HState Q, (x.heard cfg m.identity).workers = x.workers := by
    intro x; rw [heard_frame cfg m.identity x]
  cases hi.script with
  | init hk hd h =>
    have h1 : oneIf "workers" "init" m = 1 := by simp [oneIf, hk, hd, keyWorkers]
    have h2 : ∀ {w cur evs}, RegScript w cur evs → (evs.map (volCost "monitor")).sum = 0 ∧
        (evs.map takeGain).sum = 0 := by
      intro w cur evs hr
      cases hr <;> simp [volCost, Ev.msgs, sendMsg, keyWorkers, takeGain]
    rw [h1]
    cases h with
    | short _ hfr => subst hfr; exact ⟨by simp, by simp [hh]⟩
    | same hfr => subst hfr; exact ⟨by simp, by simp [hh]⟩
    | fresh _ _ _ hf hr => exact ⟨by simp [h2 hr], by simp [hf.workers, hh]⟩
    | again _ _ _ _ hf hr =>
      refine ⟨?_, by simp [hf.workers, hh]⟩
      simp only [List.map_cons, List.sum_cons, h2 hr]
      simp [volCost, Ev.msgs, keyNotifier, takeGain]
  | done hk hd h =>
    have h2 : ∀ {w t}, Next w t → (t.map (volCost "monitor")).sum = 0 ∧
        (t.map takeGain).sum = 0 := by
      intro w t hn
      cases hn <;> simp [volCost, Ev.msgs, sendMsg, keyWorkers, takeGain]
    cases h with
    | unknown _ hs => subst hs; exact ⟨by simp, by simp [hh]⟩
    | short _ hs => subst hs; exact ⟨by simp, by simp [hh]⟩
    | stale _ _ _ _ hs => subst hs; exact ⟨by simp, by simp [hh]⟩
    | report _ _ _ _ hf hd =>
      refine ⟨?_, by simp [hf.workers, hh]⟩
      cases hd with
      | ok _ ht => simp [h2 ht, volCost, Ev.msgs, okMsg, keyNotifier, takeGain]
      | failed _ _ ht => simp [h2 ht, volCost, Ev.msgs, failMsg, keyNotifier, takeGain]
      | exhausted _ _ hc _ ht =>
        simp [h2 ht, volCost, Ev.msgs, failMsg, keyNotifier, monMsg, keyMonitor, takeGain,
          quitCost, hc]
        omega
      | _ => simp [volCost, Ev.msgs, failMsg, keyNotifier, sendMsg, keyWorkers, takeGain]
  | ping hk hd h =>
    subst h
    exact ⟨by simp [volCost, Ev.msgs, keyWorkers, takeGain], by simp [hh]⟩
  | progress hk hd h =>
    subst h
    exact ⟨by simp [volCost, Ev.msgs, keyMonitor, oneIf, hk, hd, keyWorkers, takeGain],
      by simp [hh]⟩
  | workerUnknown _ _ _ h =>
    subst h
    exact ⟨by simp, by simp [hh]⟩
  | eval hk hd hf h =>
    have h1 : oneIf "clients" "eval" m = 1 := by simp [oneIf, hk, hd, keyClients]
    refine ⟨?_, by simp [hf.workers]⟩
    rw [h1]
    cases h with
    | malformed => simp [volCost, Ev.msgs, keyClients, takeGain]
    | frozen => simp [volCost, Ev.msgs, keyClients, takeGain]
    | submit _ _ _ h =>
      cases h <;> simp [volCost, Ev.msgs, keyClients, keyMonitor, monMsg, sendMsg, keyWorkers,
        takeGain, quitCost]
  | stats _ _ h => subst h; exact ⟨by simp [volCost, Ev.msgs, keyClients, takeGain], by simp⟩
  | freeze _ _ h => subst h; exact ⟨by simp [volCost, Ev.msgs, keyClients, takeGain], by simp⟩
  | unfreeze _ _ h => subst h; exact ⟨by simp [volCost, Ev.msgs, keyClients, takeGain], by simp⟩
  | clientUnknown _ _ _ h => subst h; exact ⟨by simp, by simp⟩
  | other _ h => subst h; exact ⟨by simp, by simp⟩
  | timer hk' hd ht h => exact absurd hk' hk

theorem reg_card {s : HState Q} (h : HInv s) : (ls s 0).reg.card = s.workers.length := by
  show (LawfulQM.reg s.queue).card = _
  rw [← h.reg_eq]; simp

/-- How much the monitor is told. -/
theorem frugal_le {cfg : HConfig} {env : Env} {h : List (Tr Q)} {s : HState Q}
    (hr : Run cfg env h s) :
    left "monitor" h + heldFull (ls s 0) + s.workers.length ≤ came "clients" "eval" h
      + came "workers" "progress" h + came "workers" "init" h := by
  refine Run.induct (P := fun h s => left "monitor" h + heldFull (ls s 0) + s.workers.length
    ≤ came "clients" "eval" h + came "workers" "progress" h + came "workers" "init" h) ?_ ?_ hr
  · simp [HState.init, came, left, emitted, heldFull, ls, busy_empty, que_empty]
  · intro h s m s' evs hr hv hl ih hs hi
    simp only [came_snoc, left_snoc, Tr.outs]
    by_cases hk : m.key = keyTimer
    · obtain ⟨evs', ho, hc⟩ := timer_leave hv hl hk hs
      have hc1 := hc.1
      rw [reg_card hv, reg_card hi.inv] at hc1
      have h2 : s'.outs.countP (fun o => o.key == "monitor")
          = (evs'.map (volCost "monitor")).sum := by
        rw [ho, countP_msgsOf]; rfl
      omega
    · obtain ⟨h1, h2⟩ := full_step hi hk
      have h3 := hi.steps.pot cfg.maxFailures_lt fullLaws hl
      rw [pot_full, pot_full] at h3
      have h4 : s'.outs.countP (fun o => o.key == "monitor")
          = (evs.map (volCost "monitor")).sum := by
        rw [hi.outs, countP_msgsOf]; rfl
      omega

/-- The monitor hears of at most one job taken from each worker that leaves. -/
theorem aborts_le {cfg : HConfig} {env : Env} {m : Msg} {s s' : HState Q} (h : HInv s)
    (hli : LInv cfg.maxFailures (ls s 0)) (hk : m.key = keyTimer)
    (hs : step cfg env m s = .ok () s') :
    s'.outs.countP isAborted + s'.workers.length ≤ s.workers.length := by
  obtain ⟨evs, ho, hc⟩ := timer_leave h hli hk hs
  obtain ⟨evs', hi⟩ := step_info h hs
  have hc2 := hc.2
  rw [reg_card h, reg_card hi.inv] at hc2
  have h2 : s'.outs.countP isAborted = (evs.map Ev.aborts).sum := by
    rw [ho]
    simp only [msgsOf, List.countP_flatMap]
    rfl
  omega

end Broker
