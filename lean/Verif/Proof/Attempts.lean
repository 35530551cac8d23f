import Verif.Proof.Ledger
import Verif.Proof.Journal
import Verif.Proof.Trace
import Verif.Proof.Dispatch
import Verif.Spec.Attempts

/-!
# The numbers in the entries about reassigning
-/

set_option linter.unusedSectionVars false
set_option linter.unusedSimpArgs false

namespace Broker

open QueueManager LawfulQM

theorem sentTimes_append (j : String) (a b : List LogEntry) :
    Spec.sentTimes j (a ++ b) = Spec.sentTimes j a + Spec.sentTimes j b := by
  simp [Spec.sentTimes, List.filterMap_append, List.countP_append]

theorem sentTimes_sent (j k w : String) :
    Spec.sentTimes j [.sent k w] = if k = j then 1 else 0 := by
  simp [Spec.sentTimes, Spec.sentEntry, List.countP_cons]

theorem sentTimes_other {j : String} {e : LogEntry} (h : Spec.sentEntry e = none) :
    Spec.sentTimes j [e] = 0 := by
  simp [Spec.sentTimes, h]

/-- Every entry about reassigning `j` has the number `S` plus the number of times the job was sent
    before. -/
def Numbered (j : String) (S : Nat) (log : List LogEntry) : Prop :=
  ∀ a n b, log = a ++ .reassigning j n :: b → n = S + Spec.sentTimes j a

theorem told_nil (j : String) (S : Nat) : Numbered j S [] := by
  intro a n b h
  simp at h

theorem told_snoc {j : String} {S : Nat} {l : List LogEntry} {e : LogEntry} (h : Numbered j S l)
    (he : ∀ n, e = .reassigning j n → n = S + Spec.sentTimes j l) : Numbered j S (l ++ [e]) := by
  intro a n b hl
  rcases List.eq_nil_or_concat b with rfl | ⟨b', x, rfl⟩
  · have := List.append_inj' hl rfl
    simp only [List.cons.injEq, and_true] at this
    obtain ⟨rfl, h2⟩ := this
    exact he n h2
  · rw [List.concat_eq_append, ← List.cons_append, ← List.append_assoc] at hl
    have := List.append_inj' hl rfl
    exact h a n b' this.1

theorem told_append {j : String} {S : Nat} {l es : List LogEntry} (h : Numbered j S l)
    (he : Numbered j (S + Spec.sentTimes j l) es) : Numbered j S (l ++ es) := by
  intro a n b hl
  rcases List.append_eq_append_iff.1 hl with ⟨c, rfl, hc⟩ | ⟨c, rfl, hc⟩
  · rw [he c n b hc, sentTimes_append]
    omega
  · cases c with
    | nil =>
      simp only [List.nil_append] at hc
      have := he [] n b hc.symm
      simpa [Spec.sentTimes] using this
    | cons x c =>
      simp only [List.cons_append, List.cons.injEq] at hc
      obtain ⟨rfl, -⟩ := hc
      exact h a n c rfl

theorem told_none {j : String} {S : Nat} {es : List LogEntry}
    (h : ∀ k n, .reassigning k n ∉ es) : Numbered j S es := by
  intro a n b hl
  exact absurd (by rw [hl]; simp) (h j n)

variable {Q : Type} [QueueManager Q] [LawfulQM Q]

/-- While the broker works: the job has entered at most once and the log so far is right. -/
structure Tallies (M : Nat) (j : String) (N S : Nat) (t : LState Q) (hand : Multiset Req) : Prop where
  inv : HInv t.h
  life : LInv M (ls t.h hand)
  led : Ledger j N (S + Spec.sentTimes j t.log) (ls t.h hand)
  told : Numbered j S t.log

theorem Tallies.move {M : Nat} (hM : M < SZ) {j : String} {N S : Nat} {t t' : LState Q}
    {hand hand' : Multiset Req} {evs : List Ev} (hN : N ≤ 1) (h : Tallies M j N S t hand)
    (hi : HInv t'.h) (hs : LSteps M (ls t.h hand) evs (ls t'.h hand')) (he : entering j evs = 0)
    (hg : Spec.sentTimes j t'.log = Spec.sentTimes j t.log + giving j evs) (ht : Numbered j S t'.log) :
    Tallies M j N S t' hand' := by
  refine ⟨hi, hs.linv hM h.life, ?_, ht⟩
  have := hs.ledger hM h.life h.led (by omega)
  rw [he] at this
  rw [hg, ← Nat.add_assoc]
  exact this

/-- The queue manager takes a request in hand. -/
theorem endsH_enqueue {M : Nat} {env : Env} {s : HState Q} {hand : Multiset Req} {r : Req}
    (h : HInv s) (hcomp : r.complete = true) (hfc : Alive M s.fc r) :
    EndsH (qEnqueue env r) s fun res s' => HInv s' ∧ s'.fc = s.fc ∧ s'.workers = s.workers ∧
      ((∃ w, res = ⟨some w, true⟩ ∧ LStep M (ls s (r ::ₘ hand)) (.send w r) (ls s' hand)) ∨
       (res = ⟨none, true⟩ ∧ LStep M (ls s (r ::ₘ hand)) (.park r) (ls s' hand)) ∨
       (res = ⟨none, false⟩ ∧ ls s' (r ::ₘ hand) = ls s (r ::ₘ hand) ∧ Hopeless (reg s.queue) r)) := by
  unfold qEnqueue
  refine endsH_bind (endsH_get (endsH_bind (endsH_liftE fun p heq => ?_)))
  obtain ⟨res, q'⟩ := p
  refine endsH_bind (endsH_modify (endsH_pure ?_))
  obtain ⟨h2, h3, h4⟩ := LawfulQM.enqueue _ h.qinv heq
  have hinv : (∀ p ∈ busy q', p.1.Can p.2.headers) →
      ∀ c, HInv { s with queue := q', clockReads := c } :=
    fun hb c => ⟨h2, by
      show (s.workers : Multiset Worker) = reg q'
      rw [h3]; exact h.reg_eq, hb⟩
  rcases h4 with ⟨w, rfl, hw, hidle, hcan, hb, hq⟩ | ⟨rfl, hcan, hb, hq⟩ | ⟨rfl, hno, hb, hq⟩
  · refine ⟨hinv ?_ _, rfl, rfl, .inl ⟨w, rfl, ?_⟩⟩
    · rw [hb]; intro p hp
      rcases Multiset.mem_cons.1 hp with rfl | hp
      · exact hcan
      · exact h.busyCan p hp
    · have := LStep.send (M := M) (ls s (r ::ₘ hand)) w r hand rfl hw hidle hcan hcomp hfc
      simpa [ls, h3, hb, hq] using this
  · refine ⟨hinv ?_ _, rfl, rfl, .inr (.inl ⟨rfl, ?_⟩)⟩
    · rw [hb]; exact h.busyCan
    · have := LStep.park (M := M) (ls s (r ::ₘ hand)) r hand rfl hcan hcomp hfc
      simpa [ls, h3, hb, hq] using this
  · refine ⟨hinv ?_ _, rfl, rfl, .inr (.inr ⟨rfl, ?_, hno⟩)⟩
    · rw [hb]; exact h.busyCan
    · simp [ls, h3, hb, hq]

omit [QueueManager Q] [LawfulQM Q] in
theorem endsH_of_wp {α : Type} {y : HM Q α} {s : HState Q} {R : α → HState Q → Prop} {E}
    (h : wp y s R E) : EndsH y s R := fun _ _ he => wp_ok h he

omit [QueueManager Q] [LawfulQM Q] in
theorem endsH_respond {k i : String} {d : List String} {s : HState Q} {P : Unit → HState Q → Prop}
    (h : P () { s with outs := s.outs ++ [⟨k, i, d⟩] }) : EndsH (respond k i d) s P := by
  unfold respond
  exact endsH_modify h

/-- A request in hand is reassigned. -/
theorem fits_reassign {M : Nat} (hM : M < SZ) {env : Env} {j : String} {N S : Nat} (hN : N ≤ 1)
    {t : LState Q} {hand : Multiset Req} {r : Req} (h : Tallies M j N S t (r ::ₘ hand))
    (hcomp : r.complete = true) (hfc : t.h.fc r.rid < M) :
    Ends (reassignRequestL .trace env r) t fun b u => u.h.fc = t.h.fc ∧ u.h.workers = t.h.workers ∧
      (b = true ∧ Tallies M j N S u hand ∨
       b = false ∧ Tallies M j N S u (r ::ₘ hand) ∧ Hopeless (reg t.h.queue) r) := by
  unfold reassignRequestL
  refine ends_bind (ends_quiet (endsH_get (ends_bind (ends_write ?_))))
  have hled : ∀ n, LogEntry.reassigning r.jobId (t.h.fc r.rid) = .reassigning j n →
      n = S + Spec.sentTimes j t.log := by
    intro n he
    injection he with h1 h2
    rw [← h2]
    exact h.led.idle r (by simp [ls]) h1 hcomp
  have ht1 : Numbered j S (t.log ++ [.reassigning r.jobId (t.h.fc r.rid)]) := told_snoc h.told hled
  have hs1 : Spec.sentTimes j (t.log ++ [.reassigning r.jobId (t.h.fc r.rid)]) =
      Spec.sentTimes j t.log := by
    rw [sentTimes_append, sentTimes_other rfl, Nat.add_zero]
  generalize t.log ++ [LogEntry.reassigning r.jobId (t.h.fc r.rid)] = l1 at ht1 hs1
  refine ends_bind (ends_quiet ((endsH_enqueue (M := M) (hand := hand) h.inv hcomp
    (.inr hfc)).mono fun res s' ⟨hi, hf, hw, hc⟩ => ?_))
  rcases hc with ⟨w, rfl, hst⟩ | ⟨rfl, hst⟩ | ⟨rfl, hst, hno⟩
  · simp only [if_true, sendRequestL]
    refine ends_bind (ends_bind (ends_quiet ?_))
    unfold sendRequest
    refine endsH_respond (ends_write (ends_pure ⟨hf, hw, .inl ⟨rfl, ?_⟩⟩))
    refine Tallies.move hM hN h (evs := [.send w r]) (hi.of_eq rfl rfl) (.single hst) (by simp [entering, Ev.enters]) ?_
      (told_snoc ht1 fun n he => nomatch he)
    rw [sentTimes_append, sentTimes_sent, hs1]
    simp [giving, Ev.givesJob]
  · simp only [if_true]
    refine ends_bind (ends_write (ends_pure ⟨hf, hw, .inl ⟨rfl, ?_⟩⟩))
    refine Tallies.move hM hN h (evs := [.park r]) hi (.single hst) (by simp [entering, Ev.enters]) ?_
      (told_snoc ht1 fun n he => nomatch he)
    rw [sentTimes_append, sentTimes_other rfl, hs1]
    simp [giving, Ev.givesJob]
  · simp only [Bool.false_eq_true, if_false]
    unfold notifyMonitor
    refine ends_bind (ends_quiet (endsH_respond (ends_bind (ends_write (ends_pure
      ⟨hf, hw, .inr ⟨rfl, ?_, hno⟩⟩)))))
    refine Tallies.move hM hN h (evs := []) (hi.of_eq rfl rfl) ?_ (by simp [entering]) ?_
      (told_snoc ht1 fun n he => nomatch he)
    · show LSteps M _ [] (ls s' (r ::ₘ hand))
      rw [hst]
      exact .nil _
    · rw [sentTimes_append, sentTimes_other rfl, hs1]
      simp [giving]

/-- Moves without entries. -/
theorem Tallies.quiet {M : Nat} (hM : M < SZ) {j : String} {N S : Nat} {t : LState Q} {h' : HState Q}
    {hand hand' : Multiset Req} {evs : List Ev} (hN : N ≤ 1) (h : Tallies M j N S t hand)
    (hi : HInv h') (hs : LSteps M (ls t.h hand) evs (ls h' hand')) (he : entering j evs = 0)
    (hg : giving j evs = 0) : Tallies M j N S ⟨h', t.log⟩ hand' :=
  h.move hM hN hi hs he (by rw [hg, Nat.add_zero]) h.told

theorem fits_settle {cfg : HConfig} {env : Env} {j : String} {N S : Nat} (hN : N ≤ 1) :
    ∀ {rs : List Req} {t : LState Q} {hand : Multiset Req},
    Tallies cfg.maxFailures j N S t ((rs : Multiset Req) + hand) →
    Ends (settleRequestsL .trace cfg env rs) t fun un u => u.h.workers = t.h.workers ∧
      Tallies cfg.maxFailures j N S u ((un : Multiset Req) + hand) ∧
      ∀ r ∈ un, Hopeless (reg u.h.queue) r := by
  have hM := cfg.maxFailures_lt
  intro rs
  induction rs with
  | nil => intro t hand h; exact ends_pure ⟨rfl, h, by simp⟩
  | cons r rs ih =>
    intro t hand h
    have hand_eq : ((r :: rs : List Req) : Multiset Req) + hand
        = r ::ₘ ((rs : Multiset Req) + hand) := by
      rw [← Multiset.cons_coe, Multiset.cons_add]
    rw [hand_eq] at h
    unfold settleRequestsL
    split
    · rename_i hc
      unfold notifyRejected notifyMonitor
      refine ends_bind (ends_quiet (endsH_respond (ends_bind (ends_quiet (endsH_respond ?_)))))
      refine (ih (hand := hand) ?_).mono fun _ _ hu => hu
      exact Tallies.quiet (t := t) hM hN h (h.inv.of_eq rfl rfl) (.single (LStep.giveUp (ls t.h _) r timeoutMsg _ rfl
        (Or.inl hc))) (by simp [entering, Ev.enters]) (by simp [giving, Ev.givesJob])
    · rename_i hc
      have hcomp : r.complete = true := by simpa using hc
      refine ends_bind (ends_quiet ((endsH_of_wp (wp_checkFailureCount (cfg := cfg)
        (hand := (rs : Multiset Req) + hand) (r := r) (text := timeoutMsg) h.inv)).mono ?_))
      rintro b s1 ⟨hf1, hfc1, hq1, ⟨rfl, rfl, hlt⟩ | ⟨rfl, hle, hsim1⟩⟩
      · simp only [if_true]
        refine ends_bind ((fits_reassign hM (env := env) hN (t := ⟨t.h, t.log⟩) h hcomp hlt).mono ?_)
        rintro b u ⟨-, hw, ⟨rfl, hfu⟩ | ⟨rfl, hfu, hno⟩⟩
        · simp only [if_true]
          unfold notifyMonitor
          refine ends_bind (ends_quiet (endsH_respond ?_))
          refine Ends.mono (ih (hand := hand) ?_) fun _ v hv => ⟨hv.1.trans hw, hv.2⟩
          exact Tallies.quiet (t := u) hM hN hfu (evs := []) (hfu.inv.of_eq rfl rfl) (.nil _)
            (by simp [entering]) (by simp [giving])
        · simp only [Bool.false_eq_true, if_false]
          rw [← Multiset.add_cons] at hfu
          refine ends_bind ((ih hfu).mono fun un v ⟨h1, h2, h3⟩ => ends_pure ⟨h1.trans hw, ?_, ?_⟩)
          · rw [← Multiset.cons_coe, Multiset.cons_add, ← Multiset.add_cons]
            exact h2
          · intro x hx
            rcases List.mem_cons.1 hx with rfl | hx
            · rw [← h2.inv.reg_eq, h1, hw]
              rw [← h.inv.reg_eq] at hno
              exact hno
            · exact h3 x hx
      · simp only [Bool.false_eq_true, if_false]
        exact (ih (hand := hand) (h.quiet hM hN hsim1.inv hsim1.steps (by simp [entering, Ev.enters])
          (by simp [giving, Ev.givesJob]))).mono fun _ v ⟨h1, h2⟩ => ⟨h1.trans hf1.workers, h2⟩

theorem fits_expireWorker {cfg : HConfig} {env : Env} {j : String} {N S : Nat} (hN : N ≤ 1)
    {t : LState Q} {hand : Multiset Req} {w : Worker} (h : Tallies cfg.maxFailures j N S t hand)
    (hw : w ∈ t.h.workers) :
    Ends (expireWorkerL .trace cfg env w) t fun _ u =>
      u.h.workers = regRemove w t.h.workers ∧ Tallies cfg.maxFailures j N S u hand := by
  have hM := cfg.maxFailures_lt
  have hwr := h.inv.mem_reg.1 hw
  obtain ⟨c1, c2⟩ := LawfulQM.current h.inv.qinv hwr
  obtain ⟨cur, qs, q', t1, t2, t3, t4, t5⟩ := LawfulQM.terminated h.inv.qinv hwr
  have hcur : (currentRequest t.h.queue w).1 = cur := by
    cases cur with
    | some r => exact (c2 r).2 (by rw [t5]; simp)
    | none =>
      cases hc : (currentRequest t.h.queue w).1 with
      | none => rfl
      | some r =>
        exfalso
        have hm := (c2 r).1 hc
        rw [t5] at hm
        have hm' : (w, r) ∈ busy q' := by simpa using hm
        have hwq := busy_reg t2 _ hm'
        have hn := reg_nodup h.inv.qinv
        rw [t3, Multiset.map_cons, Multiset.nodup_cons] at hn
        exact hn.1 (Multiset.mem_map.2 ⟨w, hwq, rfl⟩)
  unfold expireWorkerL
  refine ends_bind (ends_write (ends_bind (ends_quiet (endsH_modify ?_))))
  have hqc : EndsH (qCurrent w) { t.h with workers := regRemove w t.h.workers } fun o h' =>
      o = cur ∧ h' = { t.h with workers := regRemove w t.h.workers } := by
    unfold qCurrent
    refine endsH_bind (endsH_get (endsH_bind (endsH_modify (endsH_pure ⟨hcur, ?_⟩))))
    exact congrArg (fun q => { t.h with workers := regRemove w t.h.workers, queue := q }) c1
  refine ends_bind (ends_quiet (hqc.mono ?_))
  rintro o h' ⟨rfl, rfl⟩
  -- the state after counting the failure
  have key : Ends (do
        let requests ← quiet (qTerminated w)
        let unassigned ← settleRequestsL .trace cfg env requests
        quiet (rejectAll ("Worker " ++ w.getDescription ++ " dieded") unassigned))
      ⟨{ t.h with workers := regRemove w t.h.workers, fc := bumpOpt t.h.fc o },
        t.log ++ [.expired w.getDescription]⟩
      fun _ u => u.h.workers = regRemove w t.h.workers ∧ Tallies cfg.maxFailures j N S u hand := by
    have hqt : EndsH (qTerminated w)
        { t.h with workers := regRemove w t.h.workers, fc := bumpOpt t.h.fc o } fun l h' =>
        l = o.toList ++ qs ∧ h' = { t.h with
          workers := regRemove w t.h.workers, fc := bumpOpt t.h.fc o, queue := q' } := by
      unfold qTerminated
      refine endsH_bind (endsH_get (endsH_bind (endsH_liftE fun p hp => ?_)))
      rw [show _ = _ from t1] at hp
      cases hp
      exact endsH_bind (endsH_modify (endsH_pure ⟨rfl, rfl⟩))
    refine ends_bind (ends_quiet (hqt.mono ?_))
    rintro l h' ⟨rfl, rfl⟩
    have hp := regRemove_perm h.inv.addr_nodup hw
    have hreg : (regRemove w t.h.workers : Multiset Worker) = reg q' := by
      have : (t.h.workers : Multiset Worker) = w ::ₘ (regRemove w t.h.workers : Multiset Worker) := by
        simpa using hp
      rw [h.inv.reg_eq, t3] at this
      exact ((Multiset.cons_inj_right _).1 this).symm
    have hf1 : Tallies cfg.maxFailures j N S
        ⟨{ t.h with workers := regRemove w t.h.workers, fc := bumpOpt t.h.fc o, queue := q' },
          t.log ++ [.expired w.getDescription]⟩
        (((o.toList ++ qs : List Req) : Multiset Req) + hand) := by
      refine h.move hM hN (evs := [.expire w o qs]) ⟨t2, hreg, ?_⟩ (.single ?_)
        (by simp [entering, Ev.enters]) ?_ (told_snoc h.told fun n he => nomatch he)
      · intro p hp
        exact h.inv.busyCan p (by rw [t5]; exact Multiset.mem_add.2 (Or.inr hp))
      · exact LStep.expire (ls t.h hand) w o qs _ _ _ t3 t5 t4
      · rw [sentTimes_append, sentTimes_other rfl]
        simp [giving, Ev.givesJob]
    refine ends_bind ((fits_settle hN hf1).mono ?_)
    rintro un u ⟨hu1, hu2, hu3⟩
    refine ends_quiet ((endsH_of_wp (wp_rejectAll (M := cfg.maxFailures) (hand := hand) hu2.inv
      hu3)).mono ?_)
    rintro _ s3 ⟨hf3, hfc3, hq3, hsim3⟩
    refine ⟨hf3.workers.trans hu1, hu2.quiet hM hN hsim3.inv hsim3.steps ?_ ?_⟩
    · exact entering_zero j (by
        intro e he
        obtain ⟨x, -, rfl⟩ := List.mem_map.1 he
        rfl)
    · unfold giving
      rw [List.map_map]
      refine List.sum_eq_zero ?_
      intro n hn
      obtain ⟨x, -, rfl⟩ := List.mem_map.1 hn
      rfl
  cases o with
  | none => exact key
  | some r =>
    refine ends_bind (ends_quiet ?_)
    unfold bumpCount
    exact endsH_modify key

theorem fits_expireWorkers {cfg : HConfig} {env : Env} {j : String} {N S : Nat} (hN : N ≤ 1) :
    ∀ {xs : List Worker} {t : LState Q} {hand : Multiset Req},
    Tallies cfg.maxFailures j N S t hand → xs.Nodup → (∀ w ∈ xs, w ∈ t.h.workers) →
    Ends (expireWorkersL .trace cfg env xs) t fun _ u => Tallies cfg.maxFailures j N S u hand := by
  intro xs
  induction xs with
  | nil => intro t hand h _ _; exact ends_pure h
  | cons w ws ih =>
    intro t hand h hn hm
    unfold expireWorkersL
    rw [List.nodup_cons] at hn
    refine ends_bind ((fits_expireWorker hN h (hm w (by simp))).mono fun _ u ⟨h1, h2⟩ => ?_)
    refine ih h2 hn.2 fun x hx => ?_
    rw [h1]
    have hp := regRemove_perm h.inv.addr_nodup (hm w (by simp))
    have : x ∈ w :: regRemove w t.h.workers := hp.mem_iff.1 (hm x (List.mem_cons_of_mem _ hx))
    rcases List.mem_cons.1 this with rfl | h'
    · exact absurd hx hn.1
    · exact h'

/-- A timer event writes the right numbers. -/
theorem told_timer {cfg : HConfig} {env : Env} {j : String} {N S : Nat} (hN : N ≤ 1)
    {t : LState Q} {data : List String} (h : Tallies cfg.maxFailures j N S t 0) :
    Ends (processTimerL .trace cfg env data) t fun _ u => Numbered j S u.log := by
  unfold processTimerL
  cases data with
  | nil => exact ends_quiet endsH_undef
  | cons f rest =>
    dsimp only
    refine ends_bind (ends_quiet (endsH_liftE fun time _ => ends_bind (ends_quiet (endsH_get
      (ends_bind (ends_quiet ((endsH_of_wp (wp_tickWorkers (E := fun _ _ => True)
        h.inv.addr_nodup)).mono ?_)))))))
    rintro xs s1 ⟨htf, hsub, -, -⟩
    have hw1 : s1.workers = t.h.workers := by rw [htf]
    have hls : ls s1 0 = ls t.h 0 := by rw [htf]; rfl
    have hf : Tallies cfg.maxFailures j N S ⟨s1, t.log⟩ 0 := by
      refine h.quiet cfg.maxFailures_lt hN (evs := []) (h.inv.of_eq (by rw [htf]) (by rw [htf])) ?_
        (by simp [entering]) (by simp [giving])
      rw [hls]
      exact .nil _
    refine ends_bind ((fits_expireWorkers hN hf
      (hsub.nodup (List.Nodup.of_map _ h.inv.addr_nodup)) fun w hw => ?_).mono fun _ u hu => ?_)
    · show w ∈ s1.workers
      rw [hw1]
      exact hsub.subset hw
    · exact ends_quiet fun _ _ _ => hu.told

/-! ## Entries outside of reassigning -/

/-- Entries written while reassigning, apart from those about sending. -/
def isRetry : LogEntry → Bool
  | .reassigning _ _ => true
  | .waiting _ => true
  | .notEnqueued _ => true
  | _ => false

section

variable {Q : Type} {α β : Type}

/-- No entries about reassigning. -/
def NoRetry (x : LM Q α) : Prop :=
  ∀ s, Ends x s fun _ t => ∃ es, t.log = s.log ++ es ∧ ∀ e ∈ es, isRetry e = false

theorem noRetry_pure {a : α} : NoRetry (pure a : LM Q α) := fun _ => ends_pure ⟨[], by simp, by simp⟩

theorem noRetry_quiet {y : HM Q α} : NoRetry (quiet y) :=
  fun _ => ends_quiet fun _ _ _ => ⟨[], by simp, by simp⟩

theorem noRetry_write {e : LogEntry} (h : isRetry e = false) : NoRetry (write .trace e : LM Q Unit) :=
  fun _ => ends_write ⟨[e], rfl, by simpa using h⟩

theorem noRetry_bind {x : LM Q α} {f : α → LM Q β} (h : NoRetry x) (hf : ∀ a, NoRetry (f a)) :
    NoRetry (x >>= f) := by
  intro s
  refine ends_bind ((h s).mono fun a t ⟨es, h1, h2⟩ => (hf a t).mono fun b u ⟨es', h3, h4⟩ => ?_)
  refine ⟨es ++ es', by rw [h3, h1, List.append_assoc], fun e he => ?_⟩
  rcases List.mem_append.1 he with he | he
  · exact h2 e he
  · exact h4 e he

theorem noRetry_send {w : Worker} {r : Req} : NoRetry (sendRequestL .trace w r : LM Q Unit) :=
  noRetry_bind noRetry_quiet fun _ => noRetry_write rfl

theorem noRetry_sendIfSome {w : Worker} : ∀ {o : Option Req},
    NoRetry (sendIfSomeL .trace w o : LM Q Unit)
  | some _ => noRetry_send
  | none => noRetry_pure

theorem noRetry_headers : ∀ hd : Headers, NoRetry (writeHeaders .trace hd : LM Q Unit)
  | [] => noRetry_pure
  | _ :: t => noRetry_bind (noRetry_write rfl) fun _ => noRetry_headers t

variable [QueueManager Q]

theorem noRetry_submit {env : Env} {i j : String} {hd : Headers} {md : Metadata} {ad : List String} :
    NoRetry (submitL .trace env i j hd md ad : LM Q Unit) := by
  unfold submitL
  refine noRetry_bind (noRetry_write rfl) fun _ => noRetry_bind noRetry_quiet fun _ =>
    noRetry_bind noRetry_quiet fun _ => noRetry_bind noRetry_quiet fun res => ?_
  dsimp only
  split
  · split
    · exact noRetry_bind noRetry_send fun _ => noRetry_quiet
    · exact noRetry_bind (noRetry_write rfl) fun _ => noRetry_quiet
  · exact noRetry_bind (noRetry_write rfl) fun _ => noRetry_bind (noRetry_headers _) fun _ =>
      noRetry_bind noRetry_quiet fun _ => noRetry_quiet

theorem noRetry_client {env : Env} {c i : String} {d : List String} :
    NoRetry (clientCommandL .trace env c i d : LM Q Unit) := by
  unfold clientCommandL
  split
  · unfold processEvalL
    refine noRetry_bind (noRetry_write rfl) fun _ => noRetry_bind noRetry_quiet fun _ => ?_
    split
    · exact noRetry_quiet
    · split
      · exact noRetry_quiet
      · exact noRetry_write rfl
      · refine noRetry_bind noRetry_quiet fun s => ?_
        split
        · exact noRetry_bind noRetry_quiet fun _ => noRetry_write rfl
        · exact noRetry_submit
  split
  · exact noRetry_bind (noRetry_write rfl) fun _ => noRetry_quiet
  split
  · exact noRetry_bind noRetry_quiet fun _ => noRetry_bind (noRetry_write rfl) fun _ => noRetry_quiet
  split
  · exact noRetry_bind noRetry_quiet fun _ => noRetry_bind (noRetry_write rfl) fun _ => noRetry_quiet
  · exact noRetry_pure

theorem noRetry_register {env : Env} {i g : String} {hd : Headers} {extra fr : List String} :
    NoRetry (registerWorkerL .trace env i g hd extra fr : LM Q Unit) := by
  unfold registerWorkerL
  refine noRetry_bind noRetry_quiet fun s => ?_
  dsimp only
  refine noRetry_bind noRetry_quiet fun w => noRetry_bind noRetry_quiet fun _ =>
    noRetry_bind noRetry_quiet fun o => noRetry_bind noRetry_sendIfSome fun _ =>
    noRetry_bind noRetry_quiet fun _ => ?_
  split
  · exact noRetry_write rfl
  · exact noRetry_pure

theorem noRetry_init {env : Env} {i : String} {d : List String} :
    NoRetry (processInitL .trace env i d : LM Q Unit) := by
  unfold processInitL
  refine noRetry_bind (noRetry_write rfl) fun _ => ?_
  split
  · dsimp only
    refine noRetry_bind noRetry_quiet fun s => ?_
    split
    · split
      · exact noRetry_pure
      · exact noRetry_bind noRetry_quiet fun _ => noRetry_register
    · exact noRetry_register
  · exact noRetry_write rfl

theorem noRetry_doneOk {env : Env} {w : Worker} {j : String} :
    NoRetry (doneOkL .trace env w j : LM Q Unit) := by
  unfold doneOkL
  exact noRetry_bind noRetry_quiet fun _ => noRetry_bind noRetry_quiet fun _ =>
    noRetry_bind noRetry_sendIfSome fun _ => noRetry_quiet

theorem noRetry_doneFailed {env : Env} {w : Worker} {j t : String} :
    NoRetry (doneFailedL .trace env w j t : LM Q Unit) := by
  unfold doneFailedL
  refine noRetry_bind noRetry_quiet fun _ => noRetry_bind noRetry_quiet fun o => ?_
  split
  · exact noRetry_quiet
  · exact noRetry_bind noRetry_quiet fun _ => noRetry_bind noRetry_quiet fun _ =>
      noRetry_bind noRetry_sendIfSome fun _ => noRetry_quiet

theorem noRetry_free {w : Worker} : NoRetry (reportFree .trace w : LM Q Unit) := by
  unfold reportFree
  refine noRetry_bind noRetry_quiet fun o => ?_
  split
  · exact noRetry_write rfl
  · exact noRetry_pure

/-! ## Entries of a report of a worker -/

/-- Properties of lists of entries that do not mind entries unrelated to reassigning, as long as nothing
    is sent before. -/
structure Mild (R : List LogEntry → Prop) : Prop where
  plain : ∀ {es}, (∀ e ∈ es, isRetry e = false) → R es
  more : ∀ {a b}, R a → (∀ e ∈ b, isRetry e = false) → R (a ++ b)
  first : ∀ {a}, R a → R (.doneReceived :: a)

theorem mild_told (j : String) (S : Nat) : Mild (Numbered j S) where
  plain := fun h => told_none fun k n hm => nomatch h _ hm
  more := fun ha hb => told_append ha (told_none fun k n hm => nomatch hb _ hm)
  first := fun {a} ha => by
    have := told_append (j := j) (S := S) (l := [.doneReceived]) (es := a)
      (told_none (by simp)) (by rw [sentTimes_other rfl]; exact ha)
    exact this

theorem adds_done {cfg : HConfig} {env : Env} {R : List LogEntry → Prop} (hR : Mild R) {i : String}
    {d : List String} {s : LState Q}
    (hI : ∀ w r text l, w ∈ s.h.workers → (currentRequest s.h.queue w).1 = some r →
      Ends (doneInternalL .trace cfg env w text)
        ⟨{ s.h with queue := (currentRequest s.h.queue w).2 }, l⟩
        fun _ t => ∃ es, t.log = l ++ es ∧ R es) :
    Ends (processDoneL .trace cfg env i d) s fun _ t => ∃ es, t.log = s.log ++ es ∧ R es := by
  have plain : ∀ {x : LM Q Unit} (h : HState Q), NoRetry x → Ends x ⟨h, s.log ++ [.doneReceived]⟩
      fun _ t => ∃ es, t.log = s.log ++ es ∧ R es := by
    intro x h hx
    refine (hx _).mono fun _ t ⟨es, h1, h2⟩ => ⟨.doneReceived :: es, by rw [h1]; simp, hR.plain ?_⟩
    intro e he
    rcases List.mem_cons.1 he with rfl | he
    · rfl
    · exact h2 e he
  unfold processDoneL
  refine ends_bind (ends_write (ends_bind (ends_quiet (endsH_get ?_))))
  split
  · exact plain _ (noRetry_write rfl)
  rename_i w hw
  have hwm : w ∈ s.h.workers := List.mem_of_find?_eq_some hw
  split
  · rename_i c job status rest
    have hc : EndsH (qCurrent w) s.h fun o h' => o = (currentRequest s.h.queue w).1 ∧
        h' = { s.h with queue := (currentRequest s.h.queue w).2 } := by
      unfold qCurrent
      exact endsH_bind (endsH_get (endsH_bind (endsH_modify (endsH_pure ⟨rfl, rfl⟩))))
    refine ends_bind (ends_quiet (hc.mono ?_))
    rintro o h' ⟨ho, rfl⟩
    cases o with
    | none => exact ends_quiet endsH_undef
    | some r =>
      dsimp only
      split
      · exact plain _ (noRetry_write rfl)
      split
      · exact plain _ (noRetry_bind noRetry_doneOk fun _ => noRetry_free)
      split
      · split
        · refine ends_bind ((hI w r _ _ hwm ho.symm).mono fun _ t ⟨es, h1, h2⟩ => ?_)
          refine (noRetry_free t).mono fun _ u ⟨es', h3, h4⟩ => ?_
          exact ⟨.doneReceived :: (es ++ es'), by rw [h3, h1]; simp, hR.first (hR.more h2 h4)⟩
        · exact plain _ (noRetry_write rfl)
      split
      · split
        · exact plain _ (noRetry_bind noRetry_doneFailed fun _ => noRetry_free)
        · exact plain _ (noRetry_write rfl)
      · exact plain _ (noRetry_bind (noRetry_write rfl) fun _ => noRetry_free)
  · exact plain _ (noRetry_write rfl)

/-- What is written while a request is reassigned. -/
theorem reassign_entries {env : Env} {r : Req} (t : LState Q) :
    Ends (reassignRequestL .trace env r) t fun _ u => ∃ e, Spec.Settled r.jobId e ∧
      u.log = t.log ++ [.reassigning r.jobId (t.h.fc r.rid), e] := by
  unfold reassignRequestL
  refine ends_bind (ends_quiet (endsH_get (ends_bind (ends_write (ends_bind (ends_quiet ?_))))))
  intro res h' _
  dsimp only
  split
  · split
    · rename_i w _
      unfold sendRequestL
      exact ends_bind (ends_bind (ends_quiet fun _ _ _ => ends_write (ends_pure
        ⟨.sent r.jobId w.getDescription, .sent _, by simp⟩)))
    · exact ends_bind (ends_write (ends_pure ⟨_, .waiting, by simp⟩))
  · exact ends_bind (ends_quiet fun _ _ _ => ends_bind (ends_write (ends_pure
      ⟨_, .notEnqueued, by simp⟩)))

theorem endsH_check {cfg : HConfig} {r : Req} {text : String} (s : HState Q) :
    EndsH (checkFailureCount cfg r text) s fun b s' => s'.fc = s.fc ∧
      (b = true → s.fc r.rid < cfg.maxFailures) := by
  unfold checkFailureCount
  refine endsH_bind (endsH_get ?_)
  split
  · unfold notifyFailed notifyMonitor
    exact endsH_bind (endsH_respond (endsH_bind (endsH_respond (endsH_pure ⟨rfl, by simp⟩))))
  · exact endsH_pure ⟨rfl, fun _ => by omega⟩

/-- What a failed evaluation adds: one attempt to reassign, or nothing about reassigning. -/
theorem doneInternal_entries {cfg : HConfig} {env : Env} {w : Worker} {text : String}
    {R : List LogEntry → Prop} (hR : Mild R) {h : HState Q} {l : List LogEntry}
    (hre : ∀ r e n, (workerCancelled h.queue w).1 = some r → r.complete = true →
      n = szInc (h.fc r.rid) → n < cfg.maxFailures → Spec.Settled r.jobId e →
      R [.reassigning r.jobId n, e]) :
    Ends (doneInternalL .trace cfg env w text) ⟨h, l⟩ fun _ t => ∃ es, t.log = l ++ es ∧ R es := by
  unfold doneInternalL
  have hq : EndsH (qCancelled w) h fun o h' => o = (workerCancelled h.queue w).1 ∧ h'.fc = h.fc := by
    unfold qCancelled
    exact endsH_bind (endsH_get (endsH_bind (endsH_modify (endsH_pure ⟨rfl, rfl⟩))))
  refine ends_bind (ends_quiet (hq.mono ?_))
  rintro o h1 ⟨ho, hf1⟩
  cases o with
  | none => exact ends_quiet endsH_undef
  | some r =>
    dsimp only
    have none : ∀ {x : LM Q Unit} (h : HState Q), NoRetry x → Ends x ⟨h, l⟩
        fun _ t => ∃ es, t.log = l ++ es ∧ R es := fun h hx =>
      (hx _).mono fun _ t ⟨es, h1, h2⟩ => ⟨es, h1, hR.plain h2⟩
    refine ends_bind (ends_quiet ?_)
    unfold bumpCount
    refine endsH_modify ?_
    split
    · exact none _ (noRetry_bind noRetry_quiet fun _ => noRetry_quiet)
    · rename_i hc
      refine ends_bind (ends_quiet ((endsH_check _).mono ?_))
      rintro b h2 ⟨hf2, hlt⟩
      split
      · rename_i hb
        refine ends_bind ((reassign_entries _).mono fun _ u ⟨e, he, hu⟩ => ?_)
        refine ends_quiet fun _ _ _ => ⟨_, hu, ?_⟩
        have hn : h2.fc r.rid = szInc (h.fc r.rid) := by
          rw [hf2]
          simp [upd, hf1]
        refine hre r e _ ho.symm (by simpa using hc) hn ?_ he
        rw [hf2]
        exact hlt hb
      · refine ends_bind (ends_quiet fun o h3 _ => ?_)
        refine ends_bind ((noRetry_sendIfSome _).mono fun _ u ⟨es, h4, h5⟩ => ?_)
        exact ends_quiet fun _ _ _ => ⟨es, h4, hR.plain h5⟩

end

/-! ## Counting what is sent -/

theorem countP_tells {j : String} {es : List (String × String)} {ms : List Msg}
    (h : List.Forall₂ TellsEmpty es ms) (hm : ∀ m ∈ ms, m.data ≠ []) :
    es.countP (fun e => e.1 == j) = ms.countP fun m => m.data.take 2 == ["eval", j] := by
  induction h with
  | nil => rfl
  | cons h1 _ ih =>
    rename_i e m _ _ _
    have hd : m.data.take 2 = ["eval", e.1] :=
      h1.1.resolve_right (hm m (by simp))
    rw [List.countP_cons, List.countP_cons, ih fun x hx => hm x (List.mem_cons_of_mem _ hx), hd]
    simp [beq_eq_decide]

theorem evalOf_sum {cfg : HConfig} {env : Env} {h : List (Tr Q)} {m : Msg} {s s' : HState Q}
    {evs : List Ev} (hr : Run cfg env h s) (hi : StepInfo cfg env m s s' evs) (j : String)
    (hno : ∀ w r, Ev.resend w r ∉ evs) :
    s'.outs.countP (Spec.isEvalOf j) = giving j evs := by
  rw [hi.outs]
  have key : ∀ e ∈ evs, e.msgs.countP (Spec.isEvalOf j) = e.givesJob j := by
    intro e he
    rw [evalOf_count hr hi he j]
    cases hg : e.gives with
    | none => cases e <;> simp_all [Ev.gives, Ev.givesJob]
    | some p =>
      have := (hr.gives hi he hg).1
      cases e <;> simp only [Ev.gives, Option.some.injEq, reduceCtorEq] at hg
      · subst hg; dsimp only at this; simp [Ev.givesJob, this]
      · subst hg; dsimp only at this; simp [Ev.givesJob, this]
  clear hr hi hno
  induction evs with
  | nil => rfl
  | cons e es ih =>
    have h1 := key e List.mem_cons_self
    have h2 := ih fun x hx => key x (List.mem_cons_of_mem _ hx)
    rw [msgsOf_cons, List.countP_append, h1, h2]
    simp [giving]

theorem job_msg_data {cfg : HConfig} {env : Env} {h : List (Tr Q)} {m : Msg} {s s' : HState Q}
    {evs : List Ev} (hr : Run cfg env h s) (hi : StepInfo cfg env m s s' evs)
    (hno : ∀ w r, Ev.resend w r ∉ evs) : ∀ o ∈ s'.outs, Spec.isJobMsg o = true → o.data ≠ [] := by
  intro o ho hj
  rw [hi.outs, msgsOf, List.mem_flatMap] at ho
  obtain ⟨e, he, hoe⟩ := ho
  have hsh := hi.script.shape e he
  have hgv : ∀ w r, e.gives = some (w, r) → (sendMsg w r).data ≠ [] := by
    intro w r hg
    obtain ⟨x, hx⟩ := (hr.gives hi he hg).2.2.1.frames
    simp [sendMsg, hx]
  cases e with
  | say m' =>
    simp only [Ev.msgs, List.mem_singleton] at hoe
    subst hoe
    cases hsh with
    | client hk hm hi => simp [Spec.isJobMsg, hm, keyClients] at hj
    | monitor h => simp [Spec.isJobMsg, h.1, keyMonitor] at hj
    | worker hk hm hi hc hd => rcases hd with hd | hd <;> simp [Spec.isJobMsg, hd] at hj
    | error hk hm hi hd => simp [Spec.isJobMsg, hm, keyNotifier] at hj
  | send w r =>
    simp only [Ev.msgs, List.mem_singleton] at hoe
    subst hoe
    exact hgv w r rfl
  | pull w r =>
    simp only [Ev.msgs, List.mem_singleton] at hoe
    subst hoe
    exact hgv w r rfl
  | resend w r => exact absurd he (hno w r)
  | done w r =>
    simp only [Ev.msgs, List.mem_singleton] at hoe
    subst hoe
    simp [okMsg]
  | failed w r t =>
    simp only [Ev.msgs, List.mem_singleton] at hoe
    subst hoe
    simp [failMsg]
  | giveUp r t =>
    simp only [Ev.msgs, List.mem_singleton] at hoe
    subst hoe
    simp [failMsg]
  | _ => simp [Ev.msgs] at hoe

/-- Who says they have a job is sent no other. -/
theorem register_sent {env : Env} {i g : String} {hd : Headers} {extra fr : List String} {c : String}
    {s : LState Q} (h : HInv s.h) (hc : (initExtra extra "" none).2 = some c) :
    Ends (registerWorkerL .trace env i g hd extra fr) s fun _ t =>
      ∀ k d, LogEntry.sent k d ∈ t.log → LogEntry.sent k d ∈ s.log ∨ k = c := by
  unfold registerWorkerL
  refine ends_bind (ends_quiet (endsH_get ?_))
  dsimp only
  refine ends_bind (ends_quiet (endsH_liftE fun w hw => ?_))
  refine ends_bind (ends_quiet (endsH_set ?_))
  have hwf : w.WF := Worker.create_wf hw
  have haddr : w.addr = env.alloc s.h.allocs s.h.addrs := (Worker.create_fields hw).1
  have hfresh : w.addr ∉ (reg s.h.queue).map (·.addr) := by
    rw [← h.reg_eq, haddr]
    intro hm
    have hm : env.alloc s.h.allocs s.h.addrs ∈ s.h.workers.map (·.addr) := by simpa using hm
    exact env.alloc_fresh s.h.allocs s.h.addrs (List.mem_append_left _ hm)
  rw [hc]
  obtain ⟨o, q', h1, h2, h3, h4⟩ :=
    LawfulQM.add env.srt (some (Req.incomplete s.h.nextRid c)) h.qinv hwf hfresh
  have hadd : ∀ s1 : HState Q, s1.queue = s.h.queue →
      EndsH (qAddWorker env w (some (Req.incomplete s.h.nextRid c))) s1 fun o' _ => o' = o := by
    intro s1 hq
    unfold qAddWorker
    refine endsH_bind (endsH_get (endsH_bind (endsH_liftE fun p hp => ?_)))
    rw [hq, h1] at hp
    cases hp
    exact endsH_bind (endsH_modify (endsH_pure rfl))
  refine ends_bind (ends_quiet (EndsH.mono (P := fun o' _ => o' = o) (hadd _ ?_) ?_))
  · rfl
  rintro o' h' rfl
  have hlast : ∀ (u : LState Q), (∀ k d, LogEntry.sent k d ∈ u.log → LogEntry.sent k d ∈ s.log ∨ k = c) →
      Ends (do
        quiet (modify fun s => { s with timers := s.timers.emplace w 0 })
        if Level.trace.writes .debug then write .trace (.added w.getDescription (framesText fr))
        else pure ()) u fun _ t =>
        ∀ k d, LogEntry.sent k d ∈ t.log → LogEntry.sent k d ∈ s.log ∨ k = c := by
    intro u hu
    refine ends_bind (ends_quiet (endsH_modify ?_))
    split
    · refine ends_write fun k d hm => ?_
      rcases List.mem_append.1 hm with hm | hm
      · exact hu k d hm
      · simp at hm
    · exact ends_pure hu
  rcases h4.1 with rfl | rfl
  · exact ends_bind (ends_pure (hlast _ fun k d hm => .inl hm))
  · refine ends_bind ?_
    unfold sendIfSomeL sendRequestL
    refine ends_bind (ends_quiet fun _ _ _ => ends_write (hlast _ fun k d hm => ?_))
    rcases List.mem_append.1 hm with hm | hm
    · exact .inl hm
    · simp only [List.mem_singleton, LogEntry.sent.injEq] at hm
      exact .inr (hm.1.trans rfl)

theorem init_sent {cfg : HConfig} {env : Env} {i g c : String} {rest : List String} {s s' : HState Q}
    {es : List LogEntry} (h : HInv s) (hc : (initExtra (initHeaders rest []).2 "" none).2 = some c)
    (hs : stepLog .trace cfg env ⟨keyWorkers, i, "init" :: g :: rest⟩ s = .ok () ⟨s', es⟩) :
    ∀ k d, LogEntry.sent k d ∈ es → k = c := by
  suffices hE : Ends (onRequestL .trace cfg env ⟨keyWorkers, i, "init" :: g :: rest⟩)
      ⟨{ s with outs := [] }, []⟩ fun _ t => ∀ k d, LogEntry.sent k d ∈ t.log → k = c from
    hE _ _ hs
  unfold onRequestL
  simp only [if_true]
  have ht : EndsH (touchWorker cfg i) { s with outs := [] } fun _ h' =>
      h'.workers = s.workers ∧ h'.queue = s.queue := by
    unfold touchWorker
    refine endsH_bind (endsH_get ?_)
    split
    · exact endsH_pure ⟨rfl, rfl⟩
    · exact endsH_set ⟨rfl, rfl⟩
  refine ends_bind (ends_quiet (ht.mono fun _ h0 ⟨hw, hq⟩ => ?_))
  simp only [workerCommandL, if_true, processInitL]
  refine ends_bind (ends_write (ends_bind (ends_quiet (endsH_get ?_))))
  have h0i : HInv h0 := h.of_eq hq hw
  have hreg : ∀ h1 : HState Q, HInv h1 → Ends (registerWorkerL .trace env i g (initHeaders rest []).1
      (initHeaders rest []).2 (g :: rest)) ⟨h1, [] ++ [.initReceived]⟩
      fun _ t => ∀ k d, LogEntry.sent k d ∈ t.log → k = c := fun h1 hi =>
    (register_sent (s := ⟨h1, [] ++ [.initReceived]⟩) hi hc).mono fun _ t ht k d hm =>
      (ht k d hm).resolve_left (by simp)
  split
  · split
    · exact ends_pure fun k d hm => by simp at hm
    · unfold notifyError
      exact ends_bind (ends_quiet (endsH_respond (hreg _ (h0i.of_eq rfl rfl))))
  · exact hreg _ h0i

/-- The entries about sending count what is given to workers. -/
theorem sentTimes_step {cfg : HConfig} {env : Env} {h : List (Tr Q)} {m : Msg} {s s' : HState Q}
    {evs : List Ev} {es : List LogEntry} (hr : Run cfg env h s) (hi : StepInfo cfg env m s s' evs)
    (hst : stepLog .trace cfg env m s = .ok () ⟨s', es⟩)
    (ht : List.Forall₂ TellsEmpty (es.filterMap Spec.sentEntry) (s'.outs.filter Spec.isJobMsg))
    (j : String) : Spec.sentTimes j es = giving j evs := by
  by_cases hno : ∀ w r, Ev.resend w r ∉ evs
  · unfold Spec.sentTimes
    rw [countP_tells ht, ← evalOf_sum hr hi j hno, List.countP_filter]
    · refine List.countP_congr fun o _ => ?_
      simp only [Spec.isEvalOf, Spec.isJobMsg, Bool.and_eq_true, beq_iff_eq, bne_iff_ne]
      constructor
      · rintro ⟨h1, ⟨h2, h3⟩, h4⟩
        exact ⟨h2, h1⟩
      · rintro ⟨h1, h2⟩
        refine ⟨h2, ⟨h1, ?_⟩, ?_⟩ <;> intro h3 <;> rw [h3] at h2 <;> simp at h2
    · intro o ho
      rw [List.mem_filter] at ho
      exact job_msg_data hr hi hno o ho.1 ho.2
  · push Not at hno
    obtain ⟨w, r, hm⟩ := hno
    have key : ∀ {c g : String} {rest : List String} {w' : Worker} {cur : Option Req} {evs0 : List Ev}
        {pre : List Ev} {s0 : HState Q}, m.data = c :: g :: rest → m.key = keyWorkers →
        m.data.head? = some "init" →
        NewWorker s0 env m.identity g (initHeaders rest []).1 (initHeaders rest []).2 w' cur →
        RegScript w' cur evs0 → evs = pre ++ evs0 → (∀ e ∈ pre, ∃ o, e = .say o ∧ o.key = keyNotifier) →
        Spec.sentTimes j es = giving j evs := by
      intro c g rest w' cur evs0 pre s0 hd hk hh hn hs he hp
      subst he
      have hm0 : Ev.resend w r ∈ evs0 := by
        rcases List.mem_append.1 hm with hm | hm
        · obtain ⟨o, ho, _⟩ := hp _ hm
          cases ho
        · exact hm
      cases hs with
      | plain => simp at hm0
      | pull r' hc => simp at hm0
      | resend r' hc =>
        have hcur := hn.cur_eq
        rw [hc] at hcur
        obtain ⟨c', hc1, hc2⟩ := Option.map_eq_some_iff.1 hcur.symm
        have hj : r'.jobId = c' := by rw [← hc2]; rfl
        have hpre : msgsOf pre = pre.flatMap Ev.msgs := rfl
        have hfp : (msgsOf pre).filter Spec.isJobMsg = [] := by
          rw [List.filter_eq_nil_iff]
          intro o ho
          rw [msgsOf, List.mem_flatMap] at ho
          obtain ⟨e, he, ho⟩ := ho
          obtain ⟨o', rfl, hk'⟩ := hp e he
          simp only [Ev.msgs, List.mem_singleton] at ho
          subst ho
          simp [Spec.isJobMsg, hk', keyNotifier]
        have hgp : giving j pre = 0 := by
          unfold giving
          refine List.sum_eq_zero ?_
          intro n hn'
          obtain ⟨e, he, rfl⟩ := List.mem_map.1 hn'
          obtain ⟨o', rfl, _⟩ := hp e he
          rfl
        have hg : giving j (pre ++ [.register w' cur, .resend w' r']) = if r'.jobId = j then 1 else 0 := by
          unfold giving at hgp ⊢
          rw [List.map_append, List.sum_append, hgp]
          simp [Ev.givesJob]
        rw [hg]
        have hfr : r'.frames = [] := hi.steps.resend_frames (w := w') (by simp)
        have hlen := ht.length_eq
        rw [hi.outs] at hlen
        have hms : (msgsOf (pre ++ [.register w' cur, .resend w' r'])).filter Spec.isJobMsg =
            [sendMsg w' r'] := by
          rw [msgsOf, List.flatMap_append, List.filter_append]
          rw [show (pre.flatMap Ev.msgs).filter Spec.isJobMsg = [] from hfp]
          simp [Ev.msgs, sendMsg, hfr, Spec.isJobMsg, keyWorkers]
        rw [hms, List.length_singleton, List.length_eq_one_iff] at hlen
        obtain ⟨e, hes⟩ := hlen
        have hem : e ∈ es.filterMap Spec.sentEntry := by rw [hes]; simp
        obtain ⟨x, hx, hxe⟩ := List.mem_filterMap.1 hem
        have hx' : x = .sent e.1 e.2 := by
          cases x <;> simp [Spec.sentEntry] at hxe
          rw [← hxe]
        have hci : c = "init" := by rw [hd] at hh; simpa using hh
        obtain ⟨mk, mi, md⟩ := m
        subst hk hd hci
        have := init_sent hr.inv.1 hc1 hst e.1 e.2 (by rw [← hx']; exact hx)
        unfold Spec.sentTimes
        rw [hes, hj, ← this]
        simp [List.countP_cons]
    cases hi.script with
    | init hk hd h =>
      have hh : m.data.head? = some "init" := by rw [hd]; rfl
      cases h with
      | short h hfr => simp at hm
      | same hfr hm' hw he => simp at hm
      | fresh hm' hw hn hf hr' => exact key hm' hk hh hn hr' (pre := []) rfl (by simp)
      | again hm' hw hne hn hf hr' =>
        exact key hm' hk hh hn hr' (pre := [_]) rfl (by
          intro e he
          rw [List.mem_singleton] at he
          exact ⟨_, he, rfl⟩)
    | _ =>
      have := hi.script.shape _ hm
      simp only [EvShape] at this
      simp_all [keyWorkers, keyClients, keyTimer]

/-! ## Which entries go together -/

/-- Every attempt to reassign is followed by how it ended, and nothing else tells such ends. -/
inductive Neat (M : Nat) : List LogEntry → Prop
  | nil : Neat M []
  | one {e : LogEntry} {es : List LogEntry} (h : isRetry e = false) (ht : Neat M es) : Neat M (e :: es)
  | two {j : String} {n : Nat} {e : LogEntry} {es : List LogEntry} (hn : n < M) (h : Spec.Settled j e)
      (ht : Neat M es) : Neat M (.reassigning j n :: e :: es)

theorem Neat.append {M : Nat} {a b : List LogEntry} (ha : Neat M a) (hb : Neat M b) : Neat M (a ++ b) := by
  induction ha with
  | nil => exact hb
  | one h _ ih => exact .one h ih
  | two hn h _ ih => exact .two hn h ih

theorem neat_plain {M : Nat} : ∀ {es : List LogEntry}, (∀ e ∈ es, isRetry e = false) → Neat M es
  | [], _ => .nil
  | _ :: _, h => .one (h _ (by simp)) (neat_plain fun x hx => h x (List.mem_cons_of_mem _ hx))

theorem mild_neat (M : Nat) : Mild (Neat M) where
  plain := neat_plain
  more := fun ha hb => ha.append (neat_plain hb)
  first := fun ha => .one rfl ha

theorem Neat.outcome {M : Nat} {es : List LogEntry} (h : Neat M es) {j : String} {n : Nat} :
    ∀ {a b : List LogEntry}, es = a ++ .reassigning j n :: b →
      n < M ∧ ∃ e b', b = e :: b' ∧ Spec.Settled j e := by
  induction h with
  | nil => intro a b he; simp at he
  | one h _ ih =>
    intro a b he
    cases a with
    | nil =>
      simp only [List.nil_append, List.cons.injEq] at he
      rw [he.1] at h
      cases h
    | cons x a =>
      simp only [List.cons_append, List.cons.injEq] at he
      exact ih he.2
  | two hn h _ ih =>
    intro a b he
    match a with
    | [] =>
      simp only [List.nil_append, List.cons.injEq, LogEntry.reassigning.injEq] at he
      obtain ⟨⟨rfl, rfl⟩, rfl⟩ := he
      exact ⟨hn, _, _, rfl, h⟩
    | [x] =>
      simp only [List.cons_append, List.nil_append, List.cons.injEq] at he
      rw [he.2.1] at h
      cases h
    | x :: y :: a =>
      simp only [List.cons_append, List.cons.injEq] at he
      exact ih he.2.2

theorem Neat.cause {M : Nat} {es : List LogEntry} (h : Neat M es) {j : String} {x : LogEntry}
    (hx : x = .waiting j ∨ x = .notEnqueued j) :
    ∀ {a b : List LogEntry}, es = a ++ x :: b → ∃ a' n, a = a' ++ [.reassigning j n] := by
  have hxr : isRetry x = true := by rcases hx with rfl | rfl <;> rfl
  induction h with
  | nil => intro a b he; simp at he
  | one h _ ih =>
    intro a b he
    cases a with
    | nil =>
      simp only [List.nil_append, List.cons.injEq] at he
      rw [he.1, hxr] at h
      cases h
    | cons y a =>
      simp only [List.cons_append, List.cons.injEq] at he
      obtain ⟨a', n, rfl⟩ := ih he.2
      exact ⟨y :: a', n, rfl⟩
  | two hn h _ ih =>
    intro a b he
    match a with
    | [] =>
      simp only [List.nil_append, List.cons.injEq] at he
      rw [← he.1] at hx
      rcases hx with hx | hx <;> cases hx
    | [y] =>
      simp only [List.cons_append, List.nil_append, List.cons.injEq] at he
      obtain ⟨rfl, rfl, -⟩ := he
      rcases hx with rfl | rfl <;> cases h <;> exact ⟨[], _, rfl⟩
    | y :: z :: a =>
      simp only [List.cons_append, List.cons.injEq] at he
      obtain ⟨a', n, rfl⟩ := ih he.2.2
      exact ⟨y :: z :: a', n, rfl⟩

theorem neat_settle {cfg : HConfig} {env : Env} : ∀ {rs : List Req} (s : LState Q),
    Ends (settleRequestsL .trace cfg env rs) s fun _ t => ∃ es, t.log = s.log ++ es ∧
      Neat cfg.maxFailures es := by
  intro rs
  induction rs with
  | nil => intro s; exact ends_pure ⟨[], by simp, .nil⟩
  | cons r rs ih =>
    intro s
    unfold settleRequestsL
    split
    · exact ends_bind (ends_quiet fun _ _ _ => ends_bind (ends_quiet fun _ _ _ => ih _))
    · refine ends_bind (ends_quiet ((endsH_check _).mono ?_))
      rintro b h1 ⟨hf, hlt⟩
      split
      · rename_i hb
        refine ends_bind ((reassign_entries _).mono fun c u ⟨e, he, hu⟩ => ?_)
        have hblock : Neat cfg.maxFailures [.reassigning r.jobId (h1.fc r.rid), e] :=
          .two (by rw [hf]; exact hlt hb) he .nil
        have next : ∀ h2 : HState Q, Ends (settleRequestsL .trace cfg env rs) ⟨h2, u.log⟩
            fun _ t => ∃ es, t.log = s.log ++ es ∧ Neat cfg.maxFailures es := fun h2 =>
          (ih _).mono fun _ t ⟨es, h3, h4⟩ => ⟨_, by rw [h3, hu, List.append_assoc], hblock.append h4⟩
        split
        · exact ends_bind (ends_quiet fun _ h2 _ => next h2)
        · exact ends_bind ((next u.h).mono fun _ _ ht => ends_pure ht)
      · exact ih _

theorem neat_expire {cfg : HConfig} {env : Env} : ∀ {ws : List Worker} (s : LState Q),
    Ends (expireWorkersL .trace cfg env ws) s fun _ t => ∃ es, t.log = s.log ++ es ∧
      Neat cfg.maxFailures es := by
  intro ws
  induction ws with
  | nil => intro s; exact ends_pure ⟨[], by simp, .nil⟩
  | cons w ws ih =>
    intro s
    unfold expireWorkersL expireWorkerL
    refine ends_bind (ends_bind (ends_write (ends_bind (ends_quiet fun _ h1 _ => ends_bind (ends_quiet
      fun o h2 _ => ?_)))))
    have rest : ∀ h3 : HState Q, Ends (do
        let requests ← quiet (qTerminated w)
        let unassigned ← settleRequestsL .trace cfg env requests
        quiet (rejectAll ("Worker " ++ w.getDescription ++ " dieded") unassigned))
        ⟨h3, s.log ++ [.expired w.getDescription]⟩ fun _ t =>
        Ends (expireWorkersL .trace cfg env ws) t fun _ t => ∃ es, t.log = s.log ++ es ∧
          Neat cfg.maxFailures es := by
      intro h3
      refine ends_bind (ends_quiet fun rs h4 _ => ends_bind ((neat_settle _).mono
        fun un u ⟨es, h5, h6⟩ => ends_quiet fun _ h7 _ => (ih _).mono fun _ t ⟨es', h8, h9⟩ => ?_))
      exact ⟨.expired w.getDescription :: (es ++ es'), by rw [h8, h5]; simp, .one rfl (h6.append h9)⟩
    cases o with
    | none => exact rest _
    | some r => exact ends_bind (ends_quiet fun _ h3 _ => rest h3)

/-- Both about the numbers and about what goes together, for a single message. -/
theorem step_entries {cfg : HConfig} {env : Env} {m : Msg} {s s' : HState Q} {es : List LogEntry}
    {R : List LogEntry → Prop} (hR : Mild R)
    (hI : ∀ h0 : HState Q, h0.queue = s.queue → h0.fc = s.fc → h0.workers = s.workers →
      ∀ w r text l, w ∈ h0.workers → (currentRequest h0.queue w).1 = some r →
      Ends (doneInternalL .trace cfg env w text)
        ⟨{ h0 with queue := (currentRequest h0.queue w).2 }, l⟩
        fun _ t => ∃ es, t.log = l ++ es ∧ R es)
    (hT : ∀ d, Ends (processTimerL .trace cfg env d) ⟨{ s with outs := [] }, []⟩ fun _ t => R t.log)
    (hs : stepLog .trace cfg env m s = .ok () ⟨s', es⟩) : R es := by
  suffices hE : Ends (onRequestL .trace cfg env m) ⟨{ s with outs := [] }, []⟩ fun _ t => R t.log from
    hE _ _ hs
  have plain : ∀ {x : LM Q Unit} (h : HState Q), NoRetry x → Ends x ⟨h, []⟩ fun _ t => R t.log :=
    fun h hx => (hx _).mono fun _ t ⟨es, h1, h2⟩ => by
      rw [h1]
      exact hR.plain h2
  unfold onRequestL
  split
  · have ht : EndsH (touchWorker cfg m.identity) { s with outs := [] } fun _ h' =>
        h'.queue = s.queue ∧ h'.fc = s.fc ∧ h'.workers = s.workers := by
      unfold touchWorker
      refine endsH_bind (endsH_get ?_)
      split
      · exact endsH_pure ⟨rfl, rfl, rfl⟩
      · exact endsH_set ⟨rfl, rfl, rfl⟩
    refine ends_bind (ends_quiet (ht.mono fun _ h0 ⟨hq, hf, hw⟩ => ?_))
    split
    · exact ends_quiet endsH_raise
    · unfold workerCommandL
      split
      · exact plain _ noRetry_init
      split
      · refine (adds_done (s := ⟨h0, []⟩) hR (hI h0 hq hf hw)).mono fun _ t ⟨es, h1, h2⟩ => ?_
        rw [h1]
        exact h2
      split
      · exact plain _ noRetry_quiet
      split
      · exact plain _ noRetry_quiet
      · exact plain _ noRetry_pure
  split
  · split
    · exact ends_quiet endsH_raise
    · exact plain _ noRetry_client
  split
  · exact hT _
  · exact plain _ noRetry_pure

theorem step_neat {cfg : HConfig} {env : Env} {m : Msg} {s s' : HState Q} {es : List LogEntry}
    (hs : stepLog .trace cfg env m s = .ok () ⟨s', es⟩) : Neat cfg.maxFailures es := by
  refine step_entries (mild_neat _) (fun h0 _ _ _ w r text l _ _ => ?_) (fun d => ?_) hs
  · exact doneInternal_entries (mild_neat _) fun r e n _ _ _ hn he => .two hn he .nil
  · unfold processTimerL
    split
    · exact ends_quiet endsH_undef
    · refine ends_bind (ends_quiet fun _ _ _ => ends_bind (ends_quiet fun _ _ _ => ends_bind (ends_quiet
        fun ws h1 _ => ends_bind ((neat_expire _).mono fun _ u ⟨es, h2, h3⟩ => ends_quiet
          fun _ _ _ => ?_))))
      show Neat _ u.log
      rw [h2]
      exact h3

theorem step_told {cfg : HConfig} {env : Env} {m : Msg} {s s' : HState Q} {es : List LogEntry}
    {j : String} {N S : Nat} (hN : N ≤ 1) (hi : HInv s) (hl : LInv cfg.maxFailures (ls s 0))
    (hd : Ledger j N S (ls s 0)) (hs : stepLog .trace cfg env m s = .ok () ⟨s', es⟩) :
    Numbered j S es := by
  refine step_entries (mild_told j S) (fun h0 hq hf hw0 w r text l hw hc => ?_) (fun d => ?_) hs
  · rw [hw0] at hw
    rw [hq] at hc
    obtain ⟨c1, c2⟩ := LawfulQM.current hi.qinv (hi.mem_reg.1 hw)
    have hb := (c2 r).1 hc
    refine doneInternal_entries (mild_told j S) fun r' e n hr' hcomp hn hlt he => ?_
    rw [show (currentRequest h0.queue w).2 = s.queue by rw [hq, c1]] at hr'
    obtain ⟨q', h1, -⟩ := LawfulQM.cancelled hi.qinv hb
    have hrr : r' = r := by
      have : (workerCancelled s.queue w).1 = some r := by rw [h1]
      rw [this] at hr'
      cases hr'
      rfl
    subst hrr
    have hfc : h0.fc r'.rid = s.fc r'.rid := by rw [hf]
    have hal := hl.aliveB (w, r') hb hcomp
    have hinc := (szInc_le_max cfg.maxFailures_lt hal).1
    have ht1 : Numbered j S [.reassigning r'.jobId n] := by
      refine told_snoc (told_nil j S) ?_
      intro k hk
      injection hk with hk1 hk2
      have := hd.work w r' hb hk1 hcomp
      show k = S + 0
      rw [← hk2, hn, show h0.fc r'.rid = _ from hfc]
      have hinc : szInc (s.fc r'.rid) = s.fc r'.rid + 1 := hinc
      have this : s.fc r'.rid + 1 = S := this
      omega
    refine told_snoc (l := [.reassigning r'.jobId n]) ht1 ?_
    intro k hk
    rw [hk] at he
    cases he
  · refine told_timer hN ⟨hi.of_eq rfl rfl, hl, ?_, told_nil j S⟩
    exact hd

/-- **The log of a history.** -/
theorem LRun.attempts [Carries Q] [Refers Q] {cfg : HConfig} {env : Env} {h : List (Tr Q)} {log : List LogEntry}
    {s : HState Q} {j : String} (hr : LRun .trace cfg env h log s)
    (hone : h.countP (Spec.accepts j) + h.countP (Spec.adopts j) ≤ 1) :
    Ledger j (h.countP (Spec.accepts j) + h.countP (Spec.adopts j)) (Spec.sentTimes j log) (ls s 0) ∧
      Numbered j 0 log := by
  induction hr with
  | nil =>
    refine ⟨⟨?_, fun _ => rfl, ?_, ?_⟩, told_nil j 0⟩
    · rw [ls_init_held]; simp
    · intro r hr
      have hm : r ∈ (ls (HState.init Q) 0).held := by
        rw [LS.mem_held]
        exact .inr (Multiset.mem_add.1 hr)
      rw [ls_init_held] at hm
      simp at hm
    · intro w r hr
      have hm : r ∈ (ls (HState.init Q) 0).held := by
        rw [LS.mem_held]
        exact .inl ⟨w, hr⟩
      rw [ls_init_held] at hm
      simp at hm
  | @snoc h log es s s' m hr hst ih =>
    simp only [List.countP_append, List.countP_singleton] at hone ⊢
    obtain ⟨hd, ht⟩ := ih (by omega)
    have hrun := hr.run
    obtain ⟨full, hfull, hstep, ⟨ms, hms, hT⟩, -⟩ := hr.step_trail hst hrun.hs trail_sent (okMsg_true _)
      (fun _ _ _ _ => trivial) (fun _ _ => trivial) (fun _ _ => trivial) (fun _ => trivial)
    rw [selected_trace] at hfull
    subst hfull
    obtain ⟨evs, hi⟩ := step_info hrun.inv.1 hstep
    have hms' : s'.outs = ms := by simpa using hms
    rw [← hms'] at hT
    have hsent := sentTimes_step hrun hi hst hT j
    have hent := entering_eq hi j
    have hled := hi.steps.ledger cfg.maxFailures_lt hrun.inv.2 hd (by omega)
    refine ⟨?_, ?_⟩
    · rw [sentTimes_append, hsent]
      rw [hent] at hled
      have hN : h.countP (Spec.accepts j) + (if Spec.accepts j ⟨s, m, s'⟩ = true then 1 else 0) +
          (h.countP (Spec.adopts j) + (if Spec.adopts j ⟨s, m, s'⟩ = true then 1 else 0)) =
          h.countP (Spec.accepts j) + h.countP (Spec.adopts j) +
          ((if Spec.accepts j ⟨s, m, s'⟩ = true then 1 else 0) +
            (if Spec.adopts j ⟨s, m, s'⟩ = true then 1 else 0)) := by omega
      rw [hN]
      exact hled
    · refine told_append ht ?_
      rw [Nat.zero_add]
      exact step_told (by omega) hrun.inv.1 hrun.inv.2 hd hst

theorem LRun.neat {cfg : HConfig} {env : Env} {h : List (Tr Q)} {log : List LogEntry}
    {s : HState Q} (hr : LRun .trace cfg env h log s) : Neat cfg.maxFailures log := by
  induction hr with
  | nil => exact .nil
  | snoc hr hst ih => exact ih.append (step_neat hst)

end Broker
