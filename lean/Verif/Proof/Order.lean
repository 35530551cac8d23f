import Verif.Proof.Stall

/-!
# Order of dispatching

Which waiting requests operations take and add, for both queue managers.
-/

set_option linter.unusedSectionVars false

namespace Broker

open QueueManager LawfulQM

theorem Req.incomplete_not_eval (w : Worker) (n : Nat) (j : String) :
    Spec.isEval (sendMsg w (Req.incomplete n j)) = false := by
  simp [Spec.isEval, sendMsg, Req.incomplete]

namespace Single

/-- The worker took the entry: it satisfies it, and every entry it satisfies arrived no earlier. -/
structure Takes (q : Single) (w : Worker) (e : Entry) (q' : Single) : Prop where
  reg : w ∈ q'.workers
  mem : e ∈ q.jobs
  can : w.Can e.1.headers
  first : ∀ e' ∈ q.jobs, w.Can e'.1.headers → e.2 ≤ e'.2
  rest : (e :: q'.jobs).Perm q.jobs

theorem assign_takes {srt : Sorter} {q q' : Single} {w : Worker} {r : Req} (h : q.Inv)
    (hw : w ∈ q.workers) (he : q.assignRequest srt w = .ok (some r, q')) :
    ∃ e, r = e.1 ∧ Takes q w e q' := by
  have hp := srt.perm q.jobs
  rcases assign_cases h hw he with ⟨h1, _⟩ | ⟨l1, e, l2, hl, ho, hc, hno, rfl⟩
  · cases h1
  · refine ⟨e, by simpa using ho, hw, hp.mem_iff.1 (by rw [hl]; simp), hc, ?_, ?_⟩
    · intro e' he' hc'
      have hs := srt.sorted q.jobs
      rw [hl] at hs
      have hm : e' ∈ l1 ++ e :: l2 := by rw [← hl]; exact hp.mem_iff.2 he'
      rcases List.mem_append.1 hm with hm | hm
      · have := hno e' hm
        rw [Worker.Can, this] at hc'; cases hc'
      · rcases List.mem_cons.1 hm with rfl | hm
        · exact Int.le_refl _
        · have := (List.pairwise_append.1 hs).2.1
          exact (List.pairwise_cons.1 this).1 e' hm
    · rw [hl] at hp
      exact List.perm_middle.symm.trans hp

/-- Entries come from enqueueing. -/
theorem jobs_step {srt : Sorter} {q q' : Single} {op : QOp} (hi : q.Inv) (hs : QStep srt q op q')
    {e : Entry} (he : e ∈ q'.jobs) : e ∈ q.jobs ∨ ∃ now r res, op = .enq now r res ∧ e = (r, now) := by
  have hass : ∀ {q q' : Single} {w : Worker} {o : Option Req}, q.Inv → w ∈ q.workers →
      q.assignRequest srt w = .ok (o, q') → e ∈ q'.jobs → e ∈ q.jobs := by
    intro q q' w o hi hw h he
    have hp := srt.perm q.jobs
    rcases assign_cases hi hw h with ⟨_, rfl, _⟩ | ⟨l1, x, l2, hl, _, _, _, rfl⟩
    · exact hp.mem_iff.1 he
    · refine hp.mem_iff.1 ?_
      rw [hl]
      simp only [List.mem_append, List.mem_cons] at he ⊢
      rcases he with he | he <;> simp [he]
  cases hs with
  | @add _ w cur o hw hf h =>
    have hf' : w.addr ∉ q.workers.map (·.addr) := by simpa [LawfulQM.reg] using hf
    cases cur with
    | some r =>
      change (.ok (some r, _) : Except Exn _) = _ at h
      cases h
      exact .inl he
    | none =>
      have := hass (q := ⟨q.jobs, q.current.put w none, q.workers ++ [w]⟩) (q' := q') (w := w) (o := o)
        (Inv.add (q := q) hi hw hf' none).1 (by simp) h he
      exact .inl this
  | assign hw _ h => exact .inl (hass hi (by simpa [LawfulQM.reg] using hw) h he)
  | finish hb h => exact .inl (hass hi (by simpa [LawfulQM.reg] using busy_reg hi _ hb) h he)
  | @cancel _ w r hb h =>
    have hq : q' = { q with current := q.current.put w none } := (congrArg Prod.snd h).symm
    subst hq
    exact .inl he
  | @term _ w rs hw h =>
    change q.workerTerminated w = _ at h
    simp only [workerTerminated, Except.bind_eq_ok] at h
    obtain ⟨⟨out, keep⟩, hsj, h⟩ := h
    simp at h
    obtain ⟨_, rfl⟩ := h
    exact .inl (splitJobs_sub hsj e he)
  | @enq _ now r res h =>
    change q.enqueueRequest now r = .ok (res, q') at h
    simp only [enqueueRequest, Except.bind_eq_ok] at h
    obtain ⟨o, ho, h⟩ := h
    rcases select_ok ho with ⟨w, rfl, hw, hcan⟩ | ⟨rfl, hall⟩
    · simp at h
      obtain ⟨_, rfl⟩ := h
      exact .inl he
    · simp only [Except.bind_eq_ok] at h
      obtain ⟨b, hb, h⟩ := h
      cases b with
      | true =>
        simp at h
        obtain ⟨_, rfl⟩ := h
        simp only [List.mem_append, List.mem_singleton] at he
        rcases he with he | rfl
        · exact .inl he
        · exact .inr ⟨now, r, res, rfl, rfl⟩
      | false =>
        simp at h
        obtain ⟨_, rfl⟩ := h
        exact .inl he

theorem jobs_path {srt : Sorter} {q q' : Single} {ops : List QOp} (hp : QPath srt q ops q')
    (hi : q.Inv) {e : Entry} (he : e ∈ q'.jobs) :
    e ∈ q.jobs ∨ ∃ now r res, QOp.enq now r res ∈ ops ∧ e = (r, now) := by
  induction hp with
  | nil => exact .inl he
  | @cons q q1 q2 op ops h _ ih =>
    rcases ih (h.inv (Q := Single) hi) he with h1 | ⟨now, r, res, h1, h2⟩
    · rcases jobs_step hi h h1 with h2 | ⟨now, r, res, rfl, h2⟩
      · exact .inl h2
      · exact .inr ⟨now, r, res, by simp, h2⟩
    · exact .inr ⟨now, r, res, List.mem_cons_of_mem _ h1, h2⟩

end Single

/-- Evaluation messages caused by a message from a worker, single-queue manager: either the reported
    job is given out again, or the first waiting job is taken. -/
theorem step_takes {cfg : HConfig} {env : Env} {m : Msg} {s s' : HState Single} (h : HInv s)
    (hs : step cfg env m s = .ok () s') (hk : m.key = keyWorkers) {o : Msg} (ho : o ∈ s'.outs)
    (hev : Spec.isEval o = true) :
    (∃ w r text, m.data = ["done", r.jobId, "INTERNAL_ERROR", text] ∧ o = sendMsg w r ∧
      (∃ w0, (w0, r) ∈ busy s.queue) ∧ r.complete = true ∧ ∀ e ∈ s.queue.jobs, e ∈ s'.queue.jobs) ∨
    ∃ w e, o = sendMsg w e.1 ∧ w.identity = m.identity ∧ Single.Takes s.queue w e s'.queue := by
  obtain ⟨ops, hp, hsh, hout⟩ := step_ops h hs
  have hmem : o ∈ evals (ops.flatMap QOp.sends) := by
    rw [← hout]; exact List.mem_filter.2 ⟨ho, isGive_of_eval hev⟩
  obtain ⟨hmem, _⟩ := List.mem_filter.1 hmem
  cases hsh with
  | none => simp at hmem
  | @init w cur x hk' hd hid hcur =>
    right
    cases x with
    | none => simp [QOp.sends, QOp.gives] at hmem
    | some r =>
      simp [QOp.sends, QOp.gives] at hmem
      subst hmem
      cases hp with
      | cons h1 ht =>
        have e1 := ht.nil_inv
        cases h1 with
        | add hw hf h1 =>
          have hf' : w.addr ∉ s.queue.workers.map (·.addr) := by simpa [LawfulQM.reg] using hf
          cases cur with
          | some r0 =>
            change (.ok (some r0, _) : Except Exn _) = _ at h1
            cases h1
            obtain ⟨n, j, rfl⟩ := hcur _ rfl
            rw [Req.incomplete_not_eval] at hev; cases hev
          | none =>
            obtain ⟨e, rfl, ht⟩ := Single.assign_takes
              (Single.Inv.add (q := s.queue) h.qinv hw hf' none).1 (by simp) h1
            rw [← e1] at ht
            exact ⟨w, e, rfl, hid, ht.reg, ht.mem, ht.can, ht.first, ht.rest⟩
  | @ok w x j rest hk' hd hid =>
    right
    cases x with
    | none => simp [QOp.sends, QOp.gives] at hmem
    | some r =>
      simp [QOp.sends, QOp.gives] at hmem
      subst hmem
      cases hp with
      | cons h1 ht =>
        have e1 := ht.nil_inv
        cases h1 with
        | finish hb h1 =>
          obtain ⟨e, rfl, ht⟩ := Single.assign_takes h.qinv
            (by simpa [LawfulQM.reg] using busy_reg h.qinv _ hb) h1
          rw [← e1] at ht
          exact ⟨w, e, rfl, (regFind_mem hid).2, ht⟩
  | @failed w r0 x st text hk' hd hst hid =>
    right
    cases x with
    | none => simp [QOp.sends, QOp.gives] at hmem
    | some r =>
      simp [QOp.sends, QOp.gives] at hmem
      subst hmem
      cases hp with
      | @cons _ q1 _ _ _ h1 ht =>
        have hi1 := h1.inv h.qinv
        cases h1 with
        | cancel hb hc =>
          have hq : q1 = { s.queue with current := s.queue.current.put w none } :=
            (congrArg Prod.snd hc).symm
          subst hq
          cases ht with
          | cons h2 ht2 =>
            have e1 := ht2.nil_inv
            cases h2 with
            | assign hw _ h2 =>
              obtain ⟨e, rfl, ht⟩ := Single.assign_takes hi1 (by simpa [LawfulQM.reg] using hw) h2
              rw [← e1] at ht
              exact ⟨w, e, rfl, (regFind_mem hid).2, ht.reg, ht.mem, ht.can, ht.first, ht.rest⟩
  | adopted hk' hd hid hc => simp [QOp.sends, QOp.gives] at hmem
  | @again w r text now res hk' hd hid hc =>
    left
    simp [QOp.sends, QOp.gives] at hmem
    obtain ⟨a', ha', rfl⟩ := hmem
    refine ⟨a', r, text, hd, rfl, ?_⟩
    cases hp with
    | @cons _ q1 _ _ _ h1 ht =>
      cases h1 with
      | cancel hb hc =>
        have hq : q1 = { s.queue with current := s.queue.current.put w none } :=
          (congrArg Prod.snd hc).symm
        subst hq
        refine ⟨⟨w, hb⟩, by assumption, fun e he => ?_⟩
        cases ht with
        | @cons _ q2 _ _ _ h2 ht2 =>
          have e1 := ht2.nil_inv
          rw [e1]
          cases h2 with
          | enq h2 =>
            change Single.enqueueRequest _ now r = .ok (res, q2) at h2
            simp only [Single.enqueueRequest, Except.bind_eq_ok] at h2
            obtain ⟨o, ho, h2⟩ := h2
            rcases Single.select_ok ho with ⟨w, rfl, hw, hcan⟩ | ⟨rfl, hall⟩
            · simp at h2
              obtain ⟨_, rfl⟩ := h2
              exact he
            · simp only [Except.bind_eq_ok] at h2
              obtain ⟨b, hb, h2⟩ := h2
              cases b <;> simp at h2 <;> obtain ⟨_, rfl⟩ := h2 <;> simp [he]
  | eval hk' hd _ _ hc => exact absurd (hk.symm.trans hk') (by decide)
  | timer hk' _ => exact absurd (hk.symm.trans hk') (by decide)

/-! ## Multi-queue manager -/

namespace Multi

theorem findWorker_split {hs : Headers} : ∀ {l : List Worker} {w : Worker},
    findWorker hs l = .ok (some w) → ∃ l1 l2, l = l1 ++ w :: l2 ∧ w.Can hs ∧
      ∀ x ∈ l1, x.checkHeaders hs = .ok false := by
  intro l
  induction l with
  | nil => intro w h; simp [findWorker] at h
  | cons x t ih =>
    intro w h
    simp only [findWorker, Except.bind_eq_ok] at h
    obtain ⟨b, hb, h⟩ := h
    cases b with
    | true =>
      simp at h; subst h
      exact ⟨[], t, rfl, hb, by simp⟩
    | false =>
      simp at h
      obtain ⟨l1, l2, rfl, h2, h3⟩ := ih h
      refine ⟨x :: l1, l2, rfl, h2, ?_⟩
      intro y hy
      rcases List.mem_cons.1 hy with rfl | hy
      · exact hb
      · exact h3 y hy

theorem listRemove_split {w : Worker} {l1 l2 : List Worker}
    (hn : ((l1 ++ w :: l2).map (·.addr)).Nodup) : listRemove w (l1 ++ w :: l2) = l1 ++ l2 := by
  have hk : ∀ l : List Worker, w.addr ∉ l.map (·.addr) → listRemove w l = l := by
    intro l hl
    rw [listRemove, List.filter_eq_self]
    intro x hx
    simp only [ne_eq, decide_eq_true_eq]
    exact fun e => hl (List.mem_map.2 ⟨x, hx, e⟩)
  simp only [List.map_append, List.map_cons] at hn
  rw [List.nodup_append] at hn
  obtain ⟨_, h2, h3⟩ := hn
  rw [List.nodup_cons] at h2
  have e1 := hk l1 (fun hm => h3 _ hm _ (by simp) rfl)
  have e2 := hk l2 h2.1
  simp only [listRemove] at e1 e2 ⊢
  rw [List.filter_append, List.filter_cons, e1, e2]
  simp

/-- What `enqueue_request` does. -/
theorem enqueue_cases {q q' : Multi} {r : Req} {res : EnqResult} (hi : q.Inv)
    (h : q.enqueueRequest r = .ok (res, q')) :
    (res = ⟨none, false⟩ ∧ q' = q ∧ ∀ w ∈ q.ring, w.checkHeaders r.headers = .ok false) ∨
    ∃ l1 w l2, q.ring = l1 ++ w :: l2 ∧ q'.ring = l1 ++ l2 ++ [w] ∧ w.Can r.headers ∧
      (∀ x ∈ l1, x.checkHeaders r.headers = .ok false) ∧
      ((q.current.getD w none = none ∧ res = ⟨some w, true⟩ ∧ q'.queues = q.queues) ∨
       (q.current.getD w none ≠ none ∧ res = ⟨none, true⟩ ∧
          q'.queues = q.queues.put w (q.queues.getD w [] ++ [r]))) := by
  simp only [enqueueRequest, Except.bind_eq_ok] at h
  obtain ⟨o, ho, h⟩ := h
  cases o with
  | none =>
    simp at h
    obtain ⟨rfl, rfl⟩ := h
    rcases findWorker_ok ho with ⟨w, h1, _⟩ | ⟨_, h1⟩
    · cases h1
    · exact .inl ⟨rfl, rfl, h1⟩
  | some w =>
    obtain ⟨l1, l2, e1, h2, h3⟩ := findWorker_split ho
    have hn := hi.addr_nodup
    rw [e1] at hn
    have e2 : listRemove w q.ring ++ [w] = l1 ++ l2 ++ [w] := by rw [e1, listRemove_split hn]
    right
    cases hc : q.current.getD w none with
    | none =>
      simp only [hc] at h
      cases h
      exact ⟨l1, w, l2, e1, e2, h2, h3, .inl ⟨hc, rfl, rfl⟩⟩
    | some c =>
      simp only [hc] at h
      cases h
      exact ⟨l1, w, l2, e1, e2, h2, h3, .inr ⟨by rw [hc]; simp, rfl, rfl⟩⟩

/-- The queue of a worker. -/
abbrev of (q : Multi) (w : Worker) : List Req := q.queues.getD w []

theorem assign_of {q : Multi} {w x : Worker} (h : q.Inv) (hw : w ∈ q.ring) (hx : x ∈ q.ring) :
    (q.assignRequest w).2.of x = q.of x ∧ ((q.assignRequest w).1 = none ∨ x ≠ w) ∨
    ∃ r, x = w ∧ (q.assignRequest w).1 = some r ∧ q.of x = r :: (q.assignRequest w).2.of x := by
  rw [assignRequest]
  cases hq : q.queues.getD w [] with
  | nil =>
    left
    refine ⟨?_, .inl rfl⟩
    obtain ⟨v, l, t, _, _, _, _, e5⟩ := h.splitQue hw
    show (q.queues.emplace w []).getD x [] = _
    rw [e5]
  | cons r t =>
    by_cases hne : x = w
    · subst hne
      exact .inr ⟨r, rfl, rfl, by simp only [of, hq, getDq_put_self]⟩
    · have hna := addr_ne_of_ne h.addr_nodup hw hx hne
      exact .inl ⟨getDq_put_ne hna, .inr hne⟩

/-- Effect of an operation on the queue of a worker that stays registered. -/
theorem of_step {srt : Sorter} {q q' : Multi} {op : QOp} {x : Worker} (hi : q.Inv)
    (hs : QStep srt q op q') (hx : x ∈ q.ring) (hx' : x ∈ q'.ring) :
    q'.of x = q.of x ∨
    (∃ now r res, op = .enq now r res ∧ q'.of x = q.of x ++ [r] ∧ x.Can r.headers ∧
      q.current.getD x none ≠ none) ∨
    ∃ r, (op = .assign x (some r) ∨ op = .finish x (some r)) ∧ q.of x = r :: q'.of x := by
  cases hs with
  | @add _ w cur o hw hf h =>
    have hf' : w.addr ∉ q.ring.map (·.addr) := by simpa [LawfulQM.reg] using hf
    have hq : q' = (q.addWorker w cur).2 := (congrArg Prod.snd (Except.ok.inj h)).symm
    subst hq
    have hna : x.addr ≠ w.addr := fun e => hf' (List.mem_map.2 ⟨x, hx, e⟩)
    left
    simp only [of, addWorker, WMap.getD, WMap.find_emplace_of_ne hna]
  | @assign _ w o hw _ h =>
    have e := Except.ok.inj h
    have hq : q' = (q.assignRequest w).2 := (congrArg Prod.snd e).symm
    have ho : o = (q.assignRequest w).1 := (congrArg Prod.fst e).symm
    subst hq ho
    rcases assign_of hi (by simpa [LawfulQM.reg] using hw) hx with ⟨h1, _⟩ | ⟨r, rfl, h2, h3⟩
    · exact .inl h1
    · exact .inr (.inr ⟨r, .inl (by rw [h2]), h3⟩)
  | @finish _ w r o hb h =>
    have hw : w ∈ q.ring := by simpa [LawfulQM.reg] using busy_reg hi _ hb
    have e := Except.ok.inj h
    have hq : q' = (q.workerFinished w).2 := (congrArg Prod.snd e).symm
    have ho : o = (q.workerFinished w).1 := (congrArg Prod.fst e).symm
    subst hq ho
    rcases assign_of (Inv.setCur hi hw none) hw hx with ⟨h1, _⟩ | ⟨r, rfl, h2, h3⟩
    · exact .inl h1
    · exact .inr (.inr ⟨r, .inr (by rw [workerFinished, h2]), h3⟩)
  | @cancel _ w r hb h =>
    have hq : q' = { q with current := q.current.put w none } := (congrArg Prod.snd h).symm
    subst hq
    exact .inl rfl
  | @term _ w rs hw h =>
    have hq : q' = (q.workerTerminated w).2 := (congrArg Prod.snd (Except.ok.inj h)).symm
    subst hq
    have h1 : x ∈ listRemove w q.ring := hx'
    simp only [listRemove, List.mem_filter, decide_eq_true_eq] at h1
    left
    simp only [of, workerTerminated, WMap.getD, WMap.find_erase_of_ne h1.2]
  | @enq _ now r res h =>
    rcases enqueue_cases hi h with ⟨_, rfl, _⟩ | ⟨l1, w, l2, h1, h2, h3, h4, h5⟩
    · exact .inl rfl
    · rcases h5 with ⟨_, _, h5⟩ | ⟨hb, _, h5⟩
      · left; simp only [of, h5]
      · by_cases hne : x = w
        · subst hne
          exact .inr (.inl ⟨now, r, res, rfl, by simp only [of, h5, getDq_put_self], h3, hb⟩)
        · have hna := addr_ne_of_ne hi.addr_nodup (by rw [h1]; simp) hx hne
          left; simp only [of, h5, getDq_put_ne hna]

theorem term_enq_ring {srt : Sorter} {q q' : Multi} {op : QOp} (hi : q.Inv)
    (h : (∃ w rs, op = .term w rs) ∨ ∃ now r res, op = .enq now r res ∧ r.complete = true)
    (hs : QStep srt q op q') {x : Worker} (hx : x ∈ q'.ring) : x ∈ q.ring := by
  cases hs with
  | @term _ w rs hw h =>
    have hq : q' = (q.workerTerminated w).2 := (congrArg Prod.snd (Except.ok.inj h)).symm
    subst hq
    have h1 : x ∈ listRemove w q.ring := hx
    exact (List.mem_filter.1 h1).1
  | enq h =>
    rcases enqueue_cases hi h with ⟨_, rfl, _⟩ | ⟨l1, w, l2, h1, h2, _⟩
    · exact hx
    · rw [h2] at hx; rw [h1]
      simp only [List.mem_append, List.mem_cons, List.not_mem_nil, or_false] at hx ⊢
      rcases hx with (h | h) | h <;> simp [h]
  | _ => rcases h with ⟨_, _, h⟩ | ⟨_, _, _, h, _⟩ <;> cases h

/-- Operations of a timer message only append to the queues of workers that stay. -/
theorem of_timer {srt : Sorter} {q q' : Multi} {ops : List QOp} {x : Worker}
    (hp : QPath srt q ops q') (hi : q.Inv)
    (hops : ∀ op ∈ ops, (∃ w rs, op = .term w rs) ∨ ∃ now r res, op = .enq now r res ∧ r.complete = true)
    (hx' : x ∈ q'.ring) : x ∈ q.ring ∧ ∃ added, q'.of x = q.of x ++ added ∧
      ∀ r ∈ added, x.Can r.headers := by
  induction hp with
  | nil => exact ⟨hx', [], by simp, by simp⟩
  | @cons q q1 q2 op ops h _ ih =>
    obtain ⟨i1, added, i2, i3⟩ := ih (h.inv (Q := Multi) hi)
      (fun op ho => hops op (List.mem_cons_of_mem _ ho)) hx'
    have hx := term_enq_ring hi (hops op (by simp)) h i1
    refine ⟨hx, ?_⟩
    rcases of_step hi h hx i1 with h1 | ⟨now, r, res, rfl, h1, h2, _⟩ | ⟨r, h1, _⟩
    · exact ⟨added, by rw [i2, h1], i3⟩
    · refine ⟨r :: added, by rw [i2, h1]; simp, ?_⟩
      intro y hy
      rcases List.mem_cons.1 hy with rfl | hy
      · exact h2
      · exact i3 y hy
    · have := hops op (by simp)
      rcases h1 with rfl | rfl <;> rcases this with ⟨_, _, h⟩ | ⟨_, _, _, h, _⟩ <;> cases h

end Multi

theorem mem_ring {s : HState Multi} (h : HInv s) {w : Worker} (hw : w ∈ s.workers) :
    w ∈ s.queue.ring := by
  have := h.mem_reg.1 hw
  simpa [LawfulQM.reg] using this

/-- Effect of a message on the queue of a worker that stays registered. -/
theorem step_of {cfg : HConfig} {env : Env} {m : Msg} {s s' : HState Multi} (h : HInv s)
    (hs : step cfg env m s = .ok () s') {x : Worker} (hx : x ∈ s.workers) (hx' : x ∈ s'.workers)
    (h' : HInv s') :
    (∃ added, s'.queue.of x = s.queue.of x ++ added ∧ ∀ r ∈ added, x.Can r.headers) ∨
    ∃ r, s.queue.of x = r :: s'.queue.of x ∧ evals s'.outs = evals [sendMsg x r] ∧
      m.key = keyWorkers ∧ m.identity = x.identity ∧ m.data.head? = some "done" := by
  obtain ⟨ops, hp, hsh, hout⟩ := step_ops h hs
  have hr := mem_ring h hx
  have hr' := mem_ring h' hx'
  have hi : Multi.Inv s.queue := h.qinv
  cases hsh with
  | none => rw [hp.nil_inv]; exact .inl ⟨[], by simp, by simp⟩
  | init =>
    cases hp with
    | cons h1 ht =>
      rw [ht.nil_inv] at hr' ⊢
      rcases Multi.of_step hi h1 hr hr' with h2 | ⟨_, r, _, h2, _⟩ | ⟨r, h2, _⟩
      · exact .inl ⟨[], by simpa using h2, by simp⟩
      · cases h2
      · rcases h2 with h2 | h2 <;> cases h2
  | @ok w o j rest hk hd hid =>
    cases hp with
    | cons h1 ht =>
      rw [ht.nil_inv] at hr' ⊢
      rcases Multi.of_step hi h1 hr hr' with h2 | ⟨_, r, _, h2, _⟩ | ⟨r, h2, h3⟩
      · exact .inl ⟨[], by simpa using h2, by simp⟩
      · cases h2
      · rcases h2 with h2 | h2
        · cases h2
        · cases h2
          refine .inr ⟨r, h3, ?_, hk, (regFind_mem hid).2.symm, by rw [hd]; rfl⟩
          rw [hout]; simp [QOp.sends, QOp.gives]
  | @failed w r0 o st text hk hd hst hid =>
    cases hp with
    | @cons _ q1 _ _ _ h1 ht =>
      have hi1 := h1.inv h.qinv
      cases h1 with
      | cancel hb hc =>
        have hq : q1 = { s.queue with current := s.queue.current.put w none } :=
          (congrArg Prod.snd hc).symm
        subst hq
        cases ht with
        | @cons _ q2 _ _ _ h2 ht2 =>
          rw [ht2.nil_inv] at hr' ⊢
          rcases Multi.of_step hi1 h2 hr hr' with h2 | ⟨_, r, _, h2, _⟩ | ⟨r, h2, h3⟩
          · exact .inl ⟨[], by simpa using h2, by simp⟩
          · cases h2
          · rcases h2 with h2 | h2
            · cases h2
              refine .inr ⟨r, h3, ?_, hk, (regFind_mem hid).2.symm, by rw [hd]; rfl⟩
              rw [hout]; simp [QOp.sends, QOp.gives]
            · cases h2
  | @adopted w r text hk hd hid hc =>
    cases hp with
    | @cons _ q1 _ _ _ h1 ht =>
      rw [ht.nil_inv] at hr' ⊢
      rcases Multi.of_step hi h1 hr hr' with h2 | ⟨_, r, _, h2, _⟩ | ⟨r, h2, _⟩
      · exact .inl ⟨[], by simpa using h2, by simp⟩
      · cases h2
      · rcases h2 with h2 | h2 <;> cases h2
  | @again w r text now res hk hd hid hc =>
    cases hp with
    | @cons _ q1 _ _ _ h1 ht =>
      have hi1 := h1.inv h.qinv
      cases h1 with
      | cancel hb hc =>
        have hq : q1 = { s.queue with current := s.queue.current.put w none } :=
          (congrArg Prod.snd hc).symm
        subst hq
        cases ht with
        | @cons _ q2 _ _ _ h2 ht2 =>
          rw [ht2.nil_inv] at hr' ⊢
          rcases Multi.of_step hi1 h2 hr hr' with h2 | ⟨_, r, _, h2, h3, h4, _⟩ | ⟨r, h2, h3⟩
          · exact .inl ⟨[], by simpa using h2, by simp⟩
          · exact .inl ⟨[r], h3, by simpa using h4⟩
          · rcases h2 with h2 | h2 <;> cases h2
  | eval hk hd hev hf hc =>
    cases hp with
    | cons h1 ht =>
      rw [ht.nil_inv] at hr' ⊢
      rcases Multi.of_step hi h1 hr hr' with h2 | ⟨_, r, _, h2, h3, h4, _⟩ | ⟨r, h2, _⟩
      · exact .inl ⟨[], by simpa using h2, by simp⟩
      · exact .inl ⟨[r], h3, by simpa using h4⟩
      · rcases h2 with h2 | h2 <;> cases h2
  | timer hk hops => exact .inl (Multi.of_timer hp hi hops hr').2

end Broker
