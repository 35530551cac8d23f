import Verif.Proof.Ops
import Verif.Proof.SingleLaws
import Verif.Proof.MultiLaws

/-!
# Idle workers with waiting work

Which queue operations can leave a worker idle although a request waits that it could take.
-/

set_option linter.unusedSectionVars false

namespace Broker

open QueueManager LawfulQM

theorem WMap.find_erase_of_ne {V : Type} {m : WMap V} {w x : Worker} (h : x.addr ≠ w.addr) :
    (m.erase w).find x = m.find x := by
  induction m with
  | nil => rfl
  | cons a t ih =>
    obtain ⟨y, v⟩ := a
    simp only [WMap.erase]
    by_cases hy : y.addr = w.addr
    · rw [if_pos hy]
      simp [WMap.find, show ¬ y.addr = x.addr from fun e => h (e.symm.trans hy)]
    · rw [if_neg hy]
      simp only [WMap.find, ih]

theorem addr_ne_of_ne {l : List Worker} (hn : (l.map (·.addr)).Nodup) {w x : Worker} (hw : w ∈ l)
    (hx : x ∈ l) (h : x ≠ w) : x.addr ≠ w.addr := by
  intro ha
  induction l with
  | nil => simp at hw
  | cons y t ih =>
    simp only [List.map_cons, List.nodup_cons, List.mem_map, not_exists, not_and] at hn
    rcases List.mem_cons.1 hw with rfl | hw' <;> rcases List.mem_cons.1 hx with rfl | hx'
    · exact h rfl
    · exact hn.1 x hx' ha
    · exact hn.1 w hw' ha.symm
    · exact ih hn.2 hw' hx'

/-- Queue managers with the requests a registered worker could take from the queue. -/
class Conserving (Q : Type) [QueueManager Q] [LawfulQM Q] where
  /-- The worker is registered and idle, and a request waits that it could take. -/
  Stall : Q → Worker → Prop
  empty : ∀ w, ¬ Stall (QueueManager.empty : Q) w
  reg : ∀ {q : Q} {w : Worker}, Stall q w → w ∈ LawfulQM.reg q
  step : ∀ {srt : Sorter} {q q' : Q} {op : QOp} {x : Worker}, Inv q → QStep srt q op q' →
    Stall q' x → Stall q x ∨ ∃ r, op = .cancel x r
  assign : ∀ {srt : Sorter} {q q' : Q} {w : Worker} {o : Option Req}, Inv q →
    QStep srt q (.assign w o) q' → ¬ Stall q' w

namespace Single

/-- A registered idle worker although a job waits that it can process. -/
def Stall (q : Single) (w : Worker) : Prop :=
  w ∈ q.workers ∧ q.current.getD w none = none ∧ ∃ e ∈ q.jobs, w.Can e.1.headers

theorem getD_put_ne {m : WMap (Option Req)} {w x : Worker} {v : Option Req}
    (h : x.addr ≠ w.addr) : (m.put w v).getD x none = m.getD x none := by
  simp [WMap.getD, WMap.find_put_of_ne h]

theorem getD_put_self {m : WMap (Option Req)} {w : Worker} {v : Option Req} :
    (m.put w v).getD w none = v := by simp [WMap.getD, WMap.find_put_self]

/-- What `assign_request` does. -/
theorem assign_cases {srt : Sorter} {q q' : Single} {w : Worker} {o : Option Req} (h : q.Inv)
    (hw : w ∈ q.workers) (he : q.assignRequest srt w = .ok (o, q')) :
    (o = none ∧ q' = { q with jobs := srt.sort q.jobs, current := q.current.put w none } ∧
      ∀ e ∈ q.jobs, w.checkHeaders e.1.headers = .ok false) ∨
    ∃ l1 e l2, srt.sort q.jobs = l1 ++ e :: l2 ∧ o = some e.1 ∧ w.Can e.1.headers ∧
      (∀ x ∈ l1, w.checkHeaders x.1.headers = .ok false) ∧
      q' = { q with jobs := l1 ++ l2, current := q.current.put w (some e.1) } := by
  have hp := srt.perm q.jobs
  have htot : ∀ e ∈ srt.sort q.jobs, ∃ b, w.checkHeaders e.1.headers = .ok b := by
    intro e he
    exact h.safe (hp.mem_iff.1 he) w (h.wf w hw)
  obtain ⟨o', rest, ht, hcase⟩ := takeFirst_spec htot
  rcases hcase with ⟨rfl, rfl, hno⟩ | ⟨l1, e, l2, hl, rfl, rfl, hc, hno⟩
  · have h1 : q.assignRequest srt w = .ok (none,
        { q with jobs := srt.sort q.jobs, current := q.current.put w none }) := by
      simp [assignRequest, ht]
    rw [h1] at he; cases he
    exact .inl ⟨rfl, rfl, fun e he => hno e (hp.mem_iff.2 he)⟩
  · have h1 : q.assignRequest srt w = .ok (some e.1,
        { q with jobs := l1 ++ l2, current := q.current.put w (some e.1) }) := by
      simp [assignRequest, ht]
    rw [h1] at he; cases he
    exact .inr ⟨l1, e, l2, hl, rfl, hc, hno, rfl⟩

theorem stall_assign {srt : Sorter} {q q' : Single} {w x : Worker} {o : Option Req} (h : q.Inv)
    (hw : w ∈ q.workers) (he : q.assignRequest srt w = .ok (o, q')) (hs : q'.Stall x) :
    x ≠ w ∧ q.Stall x := by
  have hp := srt.perm q.jobs
  have hwx : x ∈ q.workers := by
    rcases assign_cases h hw he with ⟨_, rfl, _⟩ | ⟨l1, e, l2, _, _, _, _, rfl⟩ <;> exact hs.1
  have hne : x ≠ w := by
    rintro rfl
    rcases assign_cases h hw he with ⟨_, rfl, hno⟩ | ⟨l1, e, l2, _, _, _, _, rfl⟩
    · obtain ⟨_, _, e, he', hc⟩ := hs
      have := hno e (hp.mem_iff.1 he')
      rw [Worker.Can, this] at hc; cases hc
    · have := hs.2.1
      simp only [getD_put_self] at this
      cases this
  have hna := addr_ne_of_ne h.addr_nodup hw hwx hne
  refine ⟨hne, hwx, ?_⟩
  rcases assign_cases h hw he with ⟨_, rfl, hno⟩ | ⟨l1, e, l2, hl, _, _, _, rfl⟩
  · obtain ⟨_, hc, e, he', hcan⟩ := hs
    simp only [getD_put_ne hna] at hc
    exact ⟨hc, e, hp.mem_iff.1 he', hcan⟩
  · obtain ⟨_, hc, e', he', hcan⟩ := hs
    simp only [getD_put_ne hna] at hc
    refine ⟨hc, e', hp.mem_iff.1 ?_, hcan⟩
    rw [hl]
    simp only [List.mem_append, List.mem_cons] at he' ⊢
    rcases he' with he' | he' <;> simp [he']

theorem splitJobs_sub {ws : List Worker} : ∀ {l : List Entry} {out : List Req} {keep : List Entry},
    splitJobs ws l = .ok (out, keep) → ∀ e ∈ keep, e ∈ l := by
  intro l
  induction l with
  | nil =>
    intro out keep h e he
    simp only [splitJobs, Except.ok.injEq, Prod.mk.injEq] at h
    rw [← h.2] at he; exact he
  | cons a t ih =>
    intro out keep h e he
    simp only [splitJobs, Except.bind_eq_ok] at h
    obtain ⟨b, _, ⟨o, k⟩, hk, h⟩ := h
    cases b with
    | true =>
      simp at h
      obtain ⟨rfl, rfl⟩ := h
      rcases List.mem_cons.1 he with rfl | he
      · simp
      · exact List.mem_cons_of_mem _ (ih hk e he)
    | false =>
      simp at h
      obtain ⟨rfl, rfl⟩ := h
      exact List.mem_cons_of_mem _ (ih hk e he)

instance : Conserving Single where
  Stall := Stall
  empty w h := by obtain ⟨h, _⟩ := h; simp [QueueManager.empty] at h
  reg h := by simpa [LawfulQM.reg] using h.1
  assign {srt q q' w o} hi hs := by
    cases hs with
    | assign hw _ h =>
      intro hst
      exact (stall_assign hi (by simpa [LawfulQM.reg] using hw) h hst).1 rfl
  step {srt q q' op x} hi hs hst := by
    cases hs with
    | @add _ w cur o hw hf h =>
      have hf' : w.addr ∉ q.workers.map (·.addr) := by simpa [LawfulQM.reg] using hf
      have hadd := (Inv.add (q := q) hi hw hf' cur).1
      have old : ∀ {x}, x ≠ w → Stall ⟨q.jobs, q.current.put w cur, q.workers ++ [w]⟩ x → Stall q x := by
        rintro x hne ⟨h1, h2, h3⟩
        simp only [List.mem_append, List.mem_singleton] at h1
        rcases h1 with h1 | h1
        · have : x.addr ≠ w.addr := fun e => hf' (List.mem_map.2 ⟨x, h1, e⟩)
          exact ⟨h1, by simpa only [getD_put_ne this] using h2, h3⟩
        · exact absurd h1 hne
      cases cur with
      | some r =>
        change (.ok (some r, _) : Except Exn _) = _ at h
        cases h
        left
        by_cases hne : x = w
        · subst hne
          have := hst.2.1
          simp only [getD_put_self] at this
          cases this
        · exact old hne hst
      | none =>
        obtain ⟨hne, hst'⟩ := stall_assign hadd (by simp) h hst
        exact .inl (old hne hst')
    | assign hw _ h => exact .inl (stall_assign hi (by simpa [LawfulQM.reg] using hw) h hst).2
    | finish hb h =>
      exact .inl (stall_assign hi (by simpa [LawfulQM.reg] using busy_reg hi _ hb) h hst).2
    | @cancel _ w r hb h =>
      have hw : w ∈ q.workers := by simpa [LawfulQM.reg] using busy_reg hi _ hb
      have hq : q' = { q with current := q.current.put w none } := (congrArg Prod.snd h).symm
      subst hq
      by_cases hne : x = w
      · subst hne; exact .inr ⟨_, rfl⟩
      · have hna := addr_ne_of_ne (Inv.addr_nodup hi) hw hst.1 hne
        exact .inl ⟨hst.1, by simpa only [getD_put_ne hna] using hst.2.1, hst.2.2⟩
    | @term _ w rs hw h =>
      change q.workerTerminated w = _ at h
      simp only [workerTerminated, Except.bind_eq_ok] at h
      obtain ⟨⟨out, keep⟩, hsj, h⟩ := h
      simp at h
      obtain ⟨_, rfl⟩ := h
      obtain ⟨h1, h2, e, he, hc⟩ := hst
      simp only [List.mem_filter, Bool.not_eq_true', decide_eq_false_iff_not] at h1
      refine .inl ⟨h1.1, ?_, e, splitJobs_sub hsj e he, hc⟩
      simpa only [WMap.getD, WMap.find_erase_of_ne h1.2] using h2
    | @enq _ now r res h =>
      change q.enqueueRequest now r = .ok (res, q') at h
      simp only [enqueueRequest, Except.bind_eq_ok] at h
      obtain ⟨o, ho, h⟩ := h
      rcases select_ok ho with ⟨w, rfl, hw, hcan⟩ | ⟨rfl, hall⟩
      · simp at h
        obtain ⟨_, rfl⟩ := h
        have hw' : w ∈ q.workers := (Inv.memCur hi).1 (List.mem_map.2 ⟨_, hw, rfl⟩)
        by_cases hne : x = w
        · subst hne
          have := hst.2.1
          simp only [getD_put_self] at this
          cases this
        · have hna := addr_ne_of_ne (Inv.addr_nodup hi) hw' hst.1 hne
          exact .inl ⟨hst.1, by simpa only [getD_put_ne hna] using hst.2.1, hst.2.2⟩
      · simp only [Except.bind_eq_ok] at h
        obtain ⟨b, hb, h⟩ := h
        cases b with
        | true =>
          simp at h
          obtain ⟨_, rfl⟩ := h
          obtain ⟨h1, h2, e, he, hc⟩ := hst
          simp only [List.mem_append, List.mem_singleton] at he
          rcases he with he | rfl
          · exact .inl ⟨h1, h2, e, he, hc⟩
          · exfalso
            have hm : (x, none) ∈ q.current := by
              obtain ⟨v, l, t, e1, e2, _⟩ := Inv.splitCur hi h1
              have : v = none := by rw [← e2]; exact h2
              rw [e1, this]; simp
            have := hall x hm
            rw [Worker.Can, this] at hc; cases hc
        | false =>
          simp at h
          obtain ⟨_, rfl⟩ := h
          exact .inl hst

end Single

namespace Multi

/-- A registered idle worker although a job waits in its queue. -/
def Stall (q : Multi) (w : Worker) : Prop :=
  w ∈ q.ring ∧ q.current.getD w none = none ∧ q.queues.getD w [] ≠ []

theorem getDq_put_ne {m : WMap (List Req)} {w x : Worker} {v : List Req}
    (h : x.addr ≠ w.addr) : (m.put w v).getD x [] = m.getD x [] := by
  simp [WMap.getD, WMap.find_put_of_ne h]

theorem getDq_put_self {m : WMap (List Req)} {w : Worker} {v : List Req} :
    (m.put w v).getD w [] = v := by simp [WMap.getD, WMap.find_put_self]

theorem stall_assign {q : Multi} {w x : Worker} (h : q.Inv) (hw : w ∈ q.ring)
    (hs : (q.assignRequest w).2.Stall x) : x ≠ w ∧ q.Stall x := by
  rw [assignRequest] at hs
  cases hq : q.queues.getD w [] with
  | nil =>
    rw [hq] at hs
    have hr : x ∈ q.ring := hs.1
    have hem : q.queues.emplace w [] = q.queues := by
      obtain ⟨v, l, t, _, _, _, _, e5⟩ := h.splitQue hw
      exact e5 []
    simp only [hem] at hs
    refine ⟨?_, hs⟩
    rintro rfl
    exact hs.2.2 hq
  | cons r t =>
    rw [hq] at hs
    have hr : x ∈ q.ring := hs.1
    have hne : x ≠ w := by
      rintro rfl
      have := hs.2.1
      simp only [Single.getD_put_self] at this
      cases this
    have hna := addr_ne_of_ne h.addr_nodup hw hr hne
    exact ⟨hne, hr, by simpa only [Single.getD_put_ne hna] using hs.2.1,
      by simpa only [getDq_put_ne hna] using hs.2.2⟩

instance : Conserving Multi where
  Stall := Stall
  empty w h := by obtain ⟨h, _⟩ := h; simp [QueueManager.empty] at h
  reg h := by simpa [LawfulQM.reg] using h.1
  assign {srt q q' w o} hi hs := by
    cases hs with
    | assign hw _ h =>
      intro hst
      have hq : q' = (q.assignRequest w).2 := (congrArg Prod.snd (Except.ok.inj h)).symm
      subst hq
      exact (stall_assign hi (by simpa [LawfulQM.reg] using hw) hst).1 rfl
  step {srt q q' op x} hi hs hst := by
    cases hs with
    | @add _ w cur o hw hf h =>
      have hf' : w.addr ∉ q.ring.map (·.addr) := by simpa [LawfulQM.reg] using hf
      have hq : q' = (q.addWorker w cur).2 := (congrArg Prod.snd (Except.ok.inj h)).symm
      subst hq
      obtain ⟨h1, h2, h3⟩ := hst
      left
      rcases List.mem_cons.1 h1 with rfl | h1
      · exfalso
        apply h3
        show WMap.getD x [] (q.queues.emplace x []) = []
        simp [WMap.getD, WMap.find_emplace_self (Inv.freshQue hi hf')]
      · have hna : x.addr ≠ w.addr := fun e => hf' (List.mem_map.2 ⟨x, h1, e⟩)
        refine ⟨h1, ?_, ?_⟩
        · simpa only [addWorker, WMap.getD, WMap.find_emplace_of_ne hna] using h2
        · simpa only [addWorker, WMap.getD, WMap.find_emplace_of_ne hna] using h3
    | assign hw _ h =>
      have hq : q' = (q.assignRequest _).2 := (congrArg Prod.snd (Except.ok.inj h)).symm
      subst hq
      exact .inl (stall_assign hi (by simpa [LawfulQM.reg] using hw) hst).2
    | @finish _ w r o hb h =>
      have hw : w ∈ q.ring := by simpa [LawfulQM.reg] using busy_reg hi _ hb
      have hq : q' = (q.workerFinished w).2 := (congrArg Prod.snd (Except.ok.inj h)).symm
      subst hq
      obtain ⟨hne, h1, h2, h3⟩ := stall_assign (Inv.setCur hi hw none) hw hst
      have hna := addr_ne_of_ne (Inv.addr_nodup hi) hw h1 hne
      exact .inl ⟨h1, by simpa only [Single.getD_put_ne hna] using h2, h3⟩
    | @cancel _ w r hb h =>
      have hw : w ∈ q.ring := by simpa [LawfulQM.reg] using busy_reg hi _ hb
      have hq : q' = { q with current := q.current.put w none } := (congrArg Prod.snd h).symm
      subst hq
      by_cases hne : x = w
      · subst hne; exact .inr ⟨_, rfl⟩
      · have hna := addr_ne_of_ne (Inv.addr_nodup hi) hw hst.1 hne
        exact .inl ⟨hst.1, by simpa only [Single.getD_put_ne hna] using hst.2.1, hst.2.2⟩
    | @term _ w rs hw h =>
      have hq : q' = (q.workerTerminated w).2 := (congrArg Prod.snd (Except.ok.inj h)).symm
      subst hq
      obtain ⟨h1, h2, h3⟩ := hst
      have h1 : x ∈ listRemove w q.ring := h1
      simp only [listRemove, List.mem_filter, decide_eq_true_eq] at h1
      refine .inl ⟨h1.1, ?_, ?_⟩
      · simpa only [workerTerminated, WMap.getD, WMap.find_erase_of_ne h1.2] using h2
      · simpa only [workerTerminated, WMap.getD, WMap.find_erase_of_ne h1.2] using h3
    | @enq _ now r res h =>
      change q.enqueueRequest r = .ok (res, q') at h
      simp only [enqueueRequest, Except.bind_eq_ok] at h
      obtain ⟨o, ho, h⟩ := h
      rcases findWorker_ok ho with ⟨w, rfl, hw, hcan⟩ | ⟨rfl, hall⟩
      · have hmem : ∀ {y}, y ∈ listRemove w q.ring ++ [w] → y ∈ q.ring := by
          intro y hy
          simp only [listRemove, List.mem_append, List.mem_filter, List.mem_singleton] at hy
          rcases hy with hy | rfl
          · exact hy.1
          · exact hw
        cases hc : q.current.getD w none with
        | none =>
          simp only [hc] at h
          cases h
          obtain ⟨h1, h2, h3⟩ := hst
          by_cases hne : x = w
          · subst hne
            simp only [Single.getD_put_self] at h2
            cases h2
          · have hna := addr_ne_of_ne (Inv.addr_nodup hi) hw (hmem h1) hne
            exact .inl ⟨hmem h1, by simpa only [Single.getD_put_ne hna] using h2, h3⟩
        | some c =>
          simp only [hc] at h
          cases h
          obtain ⟨h1, h2, h3⟩ := hst
          by_cases hne : x = w
          · subst hne
            simp only [hc] at h2
            cases h2
          · have hna := addr_ne_of_ne (Inv.addr_nodup hi) hw (hmem h1) hne
            exact .inl ⟨hmem h1, h2, by simpa only [getDq_put_ne hna] using h3⟩
      · simp at h
        obtain ⟨_, rfl⟩ := h
        exact .inl hst

end Multi

/-! ## Steps -/

variable {Q : Type} [QueueManager Q] [LawfulQM Q] [Conserving Q]

open Conserving

omit [Conserving Q] in
theorem QPath.nil_inv {srt : Sorter} {q q' : Q} (h : QPath srt q [] q') : q' = q := by
  cases h; rfl

theorem QPath.stall {srt : Sorter} {q q' : Q} {ops : List QOp} {x : Worker}
    (h : QPath srt q ops q') (hi : Inv q) (hs : Stall q' x) :
    Stall q x ∨ ∃ r, QOp.cancel x r ∈ ops := by
  induction h with
  | nil => exact .inl hs
  | @cons q q1 q2 op ops h ht ih =>
    rcases ih (h.inv hi) hs with h1 | ⟨r, h1⟩
    · rcases Conserving.step hi h h1 with h2 | ⟨r, rfl⟩
      · exact .inl h2
      · exact .inr ⟨r, by simp⟩
    · exact .inr ⟨r, List.mem_cons_of_mem _ h1⟩

/-- Stalls begin with internal errors only. -/
theorem step_stall {cfg : HConfig} {env : Env} {m : Msg} {s s' : HState Q} {x : Worker} (h : HInv s)
    (hs : Broker.step cfg env m s = .ok () s') (hst : Stall s'.queue x) :
    Stall s.queue x ∨ ∃ r text, m.key = keyWorkers ∧
      m.data = ["done", r.jobId, "INTERNAL_ERROR", text] ∧
      regFind m.identity s.workers = some x ∧ (x, r) ∈ busy s.queue := by
  obtain ⟨ops, hp, ho, _⟩ := step_ops h hs
  cases ho with
  | none => rw [hp.nil_inv] at hst; exact .inl hst
  | init hk hd hid hcur =>
    rcases hp.stall h.qinv hst with h1 | ⟨r, h1⟩
    · exact .inl h1
    · simp at h1
  | ok hk hd hid =>
    rcases hp.stall h.qinv hst with h1 | ⟨r, h1⟩
    · exact .inl h1
    · simp at h1
  | @failed w r o st text hk hd hsta hid =>
    cases hp with
    | @cons _ q1 _ _ _ h1 ht =>
      cases ht with
      | @cons _ q2 _ _ _ h2 ht2 =>
        cases ht2
        have hi1 := h1.inv h.qinv
        have hne := Conserving.assign hi1 h2
        rcases Conserving.step hi1 h2 hst with h3 | ⟨r', h3⟩
        · rcases Conserving.step h.qinv h1 h3 with h4 | ⟨r', h4⟩
          · exact .inl h4
          · cases h4; exact absurd hst hne
        · cases h3
  | @adopted w r text hk hd hid hc =>
    cases hp with
    | @cons _ q1 _ _ _ h1 ht =>
      cases ht
      rcases Conserving.step h.qinv h1 hst with h4 | ⟨r', h4⟩
      · exact .inl h4
      · cases h4
        cases h1 with
        | cancel hb _ => exact .inr ⟨r, text, hk, hd, hid, hb⟩
  | @again w r text now res hk hd hid hc =>
    cases hp with
    | @cons _ q1 _ _ _ h1 ht =>
      rcases ht.stall (h1.inv h.qinv) hst with h2 | ⟨r', h2⟩
      · rcases Conserving.step h.qinv h1 h2 with h4 | ⟨r', h4⟩
        · exact .inl h4
        · cases h4
          cases h1 with
          | cancel hb _ => exact .inr ⟨r, text, hk, hd, hid, hb⟩
      · simp at h2
  | eval hk hd hev hf hc =>
    rcases hp.stall h.qinv hst with h1 | ⟨r, h1⟩
    · exact .inl h1
    · simp at h1
  | timer hk hops =>
    rcases hp.stall h.qinv hst with h1 | ⟨r, h1⟩
    · exact .inl h1
    · rcases hops _ h1 with ⟨_, _, e⟩ | ⟨_, _, _, e, _⟩ <;> cases e

end Broker
