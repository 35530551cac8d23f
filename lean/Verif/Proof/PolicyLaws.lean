import Verif.Spec.Policy
import Verif.Proof.Order
import Verif.Proof.SingleLaws

/-! # Every lawful policy satisfies `LawfulQM` -/

namespace Broker
namespace SingleOf

open Single
open LawfulQM (busy_reg)

variable {π : Policy}

/-- `assign_request`, whatever the worker did before. -/
theorem assign_spec [π.Lawful] {q : Single} (srt : Sorter) (h : q.Inv) {w : Worker} (hw : w ∈ q.workers) :
    ∃ o q', assignRequest π srt q w = .ok (o, q') ∧ Inv q' ∧ q'.workers = q.workers ∧
      Assigned w ↑(busyList (q.current.put w none)) ↑(queList q.jobs) o
        ↑(busyList q'.current) ↑(queList q'.jobs) := by
  have hp := Policy.Lawful.perm (π := π) srt w q.jobs
  have htot : ∀ e ∈ π.order srt w q.jobs, ∃ b, w.checkHeaders e.1.headers = .ok b := by
    intro e he
    exact h.safe (hp.mem_iff.1 he) w (h.wf w hw)
  have hcan : ∀ e ∈ π.order srt w q.jobs, ∃ w ∈ q.workers, w.Can e.1.headers := by
    intro e he
    exact h.can e (hp.mem_iff.1 he)
  obtain ⟨v, l, r, h1, h2, h3, h4, h5⟩ := h.splitCur hw
  obtain ⟨o, rest, ht, hcase⟩ := takeFirst_spec htot
  rcases hcase with ⟨rfl, rfl, hno⟩ | ⟨l1, e, l2, hl, rfl, rfl, hc, hno⟩
  · refine ⟨none, { q with jobs := π.order srt w q.jobs, current := q.current.put w none }, ?_,
      (h.setCur hw none).setJobs hcan, rfl, Or.inl ⟨rfl, rfl, ?_⟩⟩
    · simp [assignRequest, ht]
    · exact Multiset.coe_eq_coe.2 (hp.map _)
  · refine ⟨some e.1, { q with jobs := l1 ++ l2, current := q.current.put w (some e.1) }, ?_,
      (h.setCur hw (some e.1)).setJobs ?_, rfl, Or.inr ⟨e.1, rfl, hc, ?_, ?_⟩⟩
    · simp [assignRequest, ht]
    · intro x hx
      refine hcan x ?_
      rw [hl]
      simp only [List.mem_append, List.mem_cons] at hx ⊢
      rcases hx with hx | hx <;> simp [hx]
    · have : (queList q.jobs).Perm (queList (π.order srt w q.jobs)) := (hp.map _).symm
      rw [hl] at this
      rw [Multiset.cons_coe, Multiset.coe_eq_coe]
      refine this.trans ?_
      simp only [queList, List.map_append, List.map_cons]
      exact List.perm_middle
    · show (↑(busyList (q.current.put w (some e.1))) : Multiset (Worker × Req)) = _
      rw [h3, h3]
      simp [List.perm_middle]

instance [π.Lawful] : LawfulQM (SingleOf π) where
  Inv := Single.Inv
  reg (q : Single) := q.workers
  busy (q : Single) := busyList q.current
  que (q : Single) := queList q.jobs
  inv_empty := by
    refine ⟨List.Pairwise.nil, List.Perm.refl _, ?_, ?_⟩ <;> simp [QueueManager.empty]
  reg_empty := rfl
  busy_empty := rfl
  que_empty := rfl
  reg_wf (h : Single.Inv _) w hw := h.wf w (by simpa using hw)
  reg_nodup (h : Single.Inv _) := by simpa using h.addr_nodup
  busy_reg (h : Single.Inv _) p hp := by simpa using h.busy_mem (by simpa using hp)
  busy_nodup {q} h := by
    have h : Single.Inv q := h
    have := (busyList_addr_sublist q.current).nodup h.curSorted.addr_nodup
    simpa using this
  que_can {q} h r hr := by
    have h : Single.Inv q := h
    have hr : r ∈ queList q.jobs := by simpa using hr
    obtain ⟨e, he, rfl⟩ := List.mem_map.1 hr
    obtain ⟨w, hw, hc⟩ := h.can e he
    exact ⟨w, by simpa using hw, hc⟩
  queued_card {q} _ := by
    simp [QueueManager.queuedCount, queList]
  add {q} srt w cur h hw hf := by
    have h : Single.Inv q := h
    have hf' : w.addr ∉ q.workers.map (·.addr) := by simpa using hf
    obtain ⟨h1, h2⟩ := h.add hw hf' cur
    cases cur with
    | some c =>
      refine ⟨some c, _, rfl, h1, ?_, Or.inr rfl, ?_, rfl⟩
      · simp
      · exact Multiset.coe_eq_coe.2 (by simpa using h2)
    | none =>
      obtain ⟨o, q', g1, g2, g3, g4⟩ := assign_spec (π := π) srt h1 (w := w) (by simp)
      refine ⟨o, q', g1, g2, ?_, ?_⟩
      · rw [g3]; simp
      · have e1 : WMap.put w none (q.current.put w none) = q.current.put w none :=
          h1.idle_put (w := w) (by simp) (by
            intro r hr
            have hr2 : (w, r) ∈ busyList q.current := by
              have := h2.mem_iff.1 hr; simpa using this
            exact hf' (List.mem_map.2 ⟨w, h.busy_mem hr2, rfl⟩))
        have e2 : (↑(busyList (q.current.put w none)) : Multiset (Worker × Req))
            = ↑(busyList q.current) := Multiset.coe_eq_coe.2 (by simpa using h2)
        change Assigned w ↑(busyList (WMap.put w none (q.current.put w none))) _ _ _ _ at g4
        rw [e1, e2] at g4
        exact g4
  assign {q} srt w h hw hi := by
    have h : Single.Inv q := h
    have hw' : w ∈ q.workers := by simpa using hw
    obtain ⟨o, q', g1, g2, g3, g4⟩ := assign_spec (π := π) srt h hw'
    refine ⟨o, q', g1, g2, congrArg (fun l : List Worker => (↑l : Multiset Worker)) g3, ?_⟩
    rw [h.idle_put hw' (by simpa using hi)] at g4
    exact g4
  finished {q} srt w r b h hb := by
    have h : Single.Inv q := h
    have hm : (w, r) ∈ busyList q.current := by
      have : (w, r) ∈ (↑(busyList q.current) : Multiset (Worker × Req)) := by rw [hb]; simp
      simpa using this
    have hw : w ∈ q.workers := h.busy_mem hm
    have hcur := (h.busy_iff hw r).1 hm
    obtain ⟨v, l, t, h1, h2, h3, h4, h5⟩ := h.splitCur hw
    obtain ⟨o, q', g1, g2, g3, g4⟩ := assign_spec (π := π) srt h hw
    refine ⟨o, q', g1, g2, congrArg (fun l : List Worker => (↑l : Multiset Worker)) g3, ?_⟩
    have hbb : (↑(busyList (q.current.put w none)) : Multiset (Worker × Req)) = b := by
      have hv : v = some r := by rw [← h2]; exact hcur
      subst hv
      rw [h1] at hb
      rw [h3]
      have : (w, r) ::ₘ (↑(busyList (l ++ (w, none) :: t)) : Multiset (Worker × Req)) =
          (w, r) ::ₘ b := by
        rw [← hb]
        simp [List.perm_middle.symm]
      exact (Multiset.cons_inj_right _).1 this
    rw [← hbb]
    exact g4
  current {q w} h hw := by
    have h : Single.Inv q := h
    have hw' : w ∈ q.workers := by simpa using hw
    obtain ⟨v, l, t, h1, h2, h3, h4, h5⟩ := h.splitCur hw'
    refine ⟨?_, ?_⟩
    · show (⟨q.jobs, q.current.emplace w none, q.workers⟩ : Single) = q
      rw [h5]
      rfl
    · intro r
      have := h.busy_iff hw' r
      simpa [QueueManager.currentRequest, currentRequest] using this.symm
  cancelled {q w r} h hm := by
    have h : Single.Inv q := h
    have hm : (w, r) ∈ busyList q.current := by simpa using hm
    have hw : w ∈ q.workers := h.busy_mem hm
    have hcur := (h.busy_iff hw r).1 hm
    obtain ⟨v, l, t, h1, h2, h3, h4, h5⟩ := h.splitCur hw
    refine ⟨(q.workerCancelled w).2, ?_, h.setCur hw none, rfl, ?_, rfl⟩
    · simp [QueueManager.workerCancelled, workerCancelled, hcur]
      rfl
    · have hv : v = some r := by rw [← h2]; exact hcur
      subst hv
      show (↑(busyList q.current) : Multiset (Worker × Req)) =
        (w, r) ::ₘ ↑(busyList (q.current.put w none))
      rw [h3, h1]
      simp [List.perm_middle]
  terminated {q w} h hw := by
    have h : Single.Inv q := h
    have hw' : w ∈ q.workers := by simpa using hw
    obtain ⟨v, l, t, h1, h2, h3, h4, h5⟩ := h.splitCur hw'
    have hp := filter_perm h.addr_nodup hw'
    have hwf : ∀ x ∈ q.workers.filter (fun x => x.addr ≠ w.addr), x.WF :=
      fun x hx => h.wf x (List.mem_of_mem_filter hx)
    obtain ⟨out, keep, g1, g2, g3, g4⟩ := splitJobs_spec (l := q.jobs)
      (fun e he => isAssignable_total (h.safe he) hwf)
    refine ⟨v, out, ⟨keep, q.current.erase w, q.workers.filter (fun x => x.addr ≠ w.addr)⟩,
      ?_, ⟨?_, ?_, ?_, ?_⟩, ?_, ?_, ?_⟩
    · simp only [QueueManager.workerTerminated, workerTerminated, g1, h2]
      simp
      rfl
    · show WMap.Sorted (q.current.erase w)
      rw [h4]; exact h.curSorted.sublist (by rw [h1]; simp)
    · show ((q.current.erase w).map (·.1)).Perm (q.workers.filter (fun x => x.addr ≠ w.addr))
      rw [h4]
      have := h.keysCur.trans hp
      rw [h1] at this
      simp only [List.map_append, List.map_cons] at this
      have := List.perm_middle.symm.trans this
      simpa using (List.perm_cons w).1 this
    · exact hwf
    · intro e he
      exact (g2 e he).2
    · exact Multiset.coe_eq_coe.2 hp
    · show (↑(queList q.jobs) : Multiset Req) = ↑out + ↑(queList keep)
      rw [Multiset.coe_add, Multiset.coe_eq_coe]
      exact g4
    · show (↑(busyList q.current) : Multiset (Worker × Req)) =
        ↑(v.map (fun r => (w, r))).toList + ↑(busyList (q.current.erase w))
      rw [h4, h1]
      cases v with
      | none => simp
      | some c => simp [List.perm_middle]
  enqueue {q} now r res q' h heq := by
    have h : Single.Inv q := h
    change enqueueRequest π q now r = .ok (res, q') at heq
    simp only [enqueueRequest, Except.bind_eq_ok] at heq
    obtain ⟨o, ho, heq⟩ := heq
    rcases o with _ | w
    rotate_left
    · obtain ⟨hw, hcan⟩ := Policy.Lawful.selects ho
      have hw' : w ∈ q.workers := h.memCur.1 (List.mem_map.2 ⟨_, hw, rfl⟩)
      obtain ⟨v, l, t, h1, h2, h3, h4, h5⟩ := h.splitCur hw'
      have hv : v = none := (h.curSorted.unique (by rw [h1]; simp) hw rfl).2
      subst hv
      simp at heq
      obtain ⟨rfl, rfl⟩ := heq
      refine ⟨h.setCur hw' (some r), rfl, Or.inl ⟨w, rfl, by simpa using hw', ?_, hcan, ?_, rfl⟩⟩
      · intro r' hr'
        have := (h.busy_iff hw' r').1 (by simpa using hr')
        rw [h2] at this; cases this
      · show (↑(busyList (q.current.put w (some r))) : Multiset (Worker × Req)) = _
        rw [h3, h1]; simp [List.perm_middle]
    · simp only [Except.bind_eq_ok] at heq
      obtain ⟨b, hb, heq⟩ := heq
      rcases isAssignable_ok hb with ⟨rfl, w, hw, hcan⟩ | ⟨rfl, hno⟩
      · simp at heq
        obtain ⟨rfl, rfl⟩ := heq
        refine ⟨h.setJobs ?_, rfl, Or.inr (Or.inl ⟨rfl, ⟨w, by simpa using hw, hcan⟩, rfl, ?_⟩)⟩
        · intro e he
          simp only [List.mem_append, List.mem_singleton] at he
          rcases he with he | rfl
          · exact h.can e he
          · exact ⟨w, hw, hcan⟩
        · show (↑(queList (q.jobs ++ [(r, now)])) : Multiset Req) = r ::ₘ ↑(queList q.jobs)
          simp only [queList, List.map_append, List.map_cons, List.map_nil, Multiset.cons_coe,
            Multiset.coe_eq_coe]
          simp
      · simp at heq
        obtain ⟨rfl, rfl⟩ := heq
        exact ⟨h, rfl, Or.inr (Or.inr ⟨rfl, by simpa using hno, rfl, rfl⟩)⟩
  enqueue_error {q} now r e h heq := by
    have h : Single.Inv q := h
    change enqueueRequest π q now r = .error e at heq
    simp only [enqueueRequest, Except.bind_eq_error] at heq
    rcases heq with heq | ⟨o, ho, heq⟩
    · obtain ⟨p, hp, he⟩ := Policy.Lawful.throws heq
      exact ⟨p.1, by simpa using h.memCur.1 (List.mem_map.2 ⟨_, hp, rfl⟩), he⟩
    · cases o with
      | some w => simp at heq
      | none =>
        simp only [Except.bind_eq_error] at heq
        rcases heq with heq | ⟨b, hb, heq⟩
        · simpa using isAssignable_error heq
        · cases b <;> simp at heq


/-- What `assign_request` does. -/
theorem assign_cases [π.Lawful] {srt : Sorter} {q q' : Single} {w : Worker} {o : Option Req} (h : q.Inv)
    (hw : w ∈ q.workers) (he : assignRequest π srt q w = .ok (o, q')) :
    (o = none ∧ q' = { q with jobs := π.order srt w q.jobs, current := q.current.put w none } ∧
      ∀ e ∈ q.jobs, w.checkHeaders e.1.headers = .ok false) ∨
    ∃ l1 e l2, π.order srt w q.jobs = l1 ++ e :: l2 ∧ o = some e.1 ∧ w.Can e.1.headers ∧
      (∀ x ∈ l1, w.checkHeaders x.1.headers = .ok false) ∧
      q' = { q with jobs := l1 ++ l2, current := q.current.put w (some e.1) } := by
  have hp := Policy.Lawful.perm (π := π) srt w q.jobs
  have htot : ∀ e ∈ π.order srt w q.jobs, ∃ b, w.checkHeaders e.1.headers = .ok b := by
    intro e he
    exact h.safe (hp.mem_iff.1 he) w (h.wf w hw)
  obtain ⟨o', rest, ht, hcase⟩ := takeFirst_spec htot
  rcases hcase with ⟨rfl, rfl, hno⟩ | ⟨l1, e, l2, hl, rfl, rfl, hc, hno⟩
  · have h1 : assignRequest π srt q w = .ok (none,
        { q with jobs := π.order srt w q.jobs, current := q.current.put w none }) := by
      simp [assignRequest, ht]
    rw [h1] at he; cases he
    exact .inl ⟨rfl, rfl, fun e he => hno e (hp.mem_iff.2 he)⟩
  · have h1 : assignRequest π srt q w = .ok (some e.1,
        { q with jobs := l1 ++ l2, current := q.current.put w (some e.1) }) := by
      simp [assignRequest, ht]
    rw [h1] at he; cases he
    exact .inr ⟨l1, e, l2, hl, rfl, hc, hno, rfl⟩

theorem stall_assign [π.Lawful] {srt : Sorter} {q q' : Single} {w x : Worker} {o : Option Req} (h : q.Inv)
    (hw : w ∈ q.workers) (he : assignRequest π srt q w = .ok (o, q')) (hs : q'.Stall x) :
    x ≠ w ∧ q.Stall x := by
  have hp := Policy.Lawful.perm (π := π) srt w q.jobs
  have hwx : x ∈ q.workers := by
    rcases assign_cases h hw he with ⟨_, rfl, _⟩ | ⟨l1, e, l2, _, _, _, _, rfl⟩ <;> exact hs.1
  have hne : x ≠ w := by
    rintro rfl
    rcases assign_cases h hw he with ⟨_, rfl, hno⟩ | ⟨l1, e, l2, _, _, _, _, rfl⟩
    · obtain ⟨_, _, e, he', hc⟩ := hs
      have := hno e (hp.mem_iff.1 he')
      rw [Worker.Can, this] at hc; cases hc
    · have := hs.2.1
      simp only [getD_put_self] at this
      cases this
  have hna := addr_ne_of_ne h.addr_nodup hw hwx hne
  refine ⟨hne, hwx, ?_⟩
  rcases assign_cases h hw he with ⟨_, rfl, hno⟩ | ⟨l1, e, l2, hl, _, _, _, rfl⟩
  · obtain ⟨_, hc, e, he', hcan⟩ := hs
    simp only [getD_put_ne hna] at hc
    exact ⟨hc, e, hp.mem_iff.1 he', hcan⟩
  · obtain ⟨_, hc, e', he', hcan⟩ := hs
    simp only [getD_put_ne hna] at hc
    refine ⟨hc, e', hp.mem_iff.1 ?_, hcan⟩
    rw [hl]
    simp only [List.mem_append, List.mem_cons] at he' ⊢
    rcases he' with he' | he' <;> simp [he']

instance [π.Lawful] [π.Eager] : Conserving (SingleOf π) where
  Stall := Single.Stall
  empty w h := by obtain ⟨h, _⟩ := h; simp [QueueManager.empty] at h
  reg h := by simpa [LawfulQM.reg] using h.1
  assign {srt q q' w o} hi hs := by
    cases hs with
    | assign hw _ h =>
      intro hst
      exact (stall_assign (π := π) hi (by simpa [LawfulQM.reg] using hw) h hst).1 rfl
  step {srt q q' op x} hi hs hst := by
    cases hs with
    | @add _ w cur o hw hf h =>
      have hf' : w.addr ∉ q.workers.map (·.addr) := by simpa [LawfulQM.reg] using hf
      have hadd := (Inv.add (q := q) hi hw hf' cur).1
      have old : ∀ {x}, x ≠ w → Stall ⟨q.jobs, q.current.put w cur, q.workers ++ [w]⟩ x → Stall q x := by
        rintro x hne ⟨h1, h2, h3⟩
        simp only [List.mem_append, List.mem_singleton] at h1
        rcases h1 with h1 | h1
        · have : x.addr ≠ w.addr := fun e => hf' (List.mem_map.2 ⟨x, h1, e⟩)
          exact ⟨h1, by simpa only [getD_put_ne this] using h2, h3⟩
        · exact absurd h1 hne
      cases cur with
      | some r =>
        change (.ok (some r, _) : Except Exn _) = _ at h
        cases h
        left
        by_cases hne : x = w
        · subst hne
          have := hst.2.1
          simp only [getD_put_self] at this
          cases this
        · exact old hne hst
      | none =>
        obtain ⟨hne, hst'⟩ := stall_assign (π := π) hadd (by simp) h hst
        exact .inl (old hne hst')
    | assign hw _ h => exact .inl (stall_assign (π := π) hi (by simpa [LawfulQM.reg] using hw) h hst).2
    | finish hb h =>
      exact .inl (stall_assign (π := π) hi (by simpa [LawfulQM.reg] using busy_reg hi _ hb) h hst).2
    | @cancel _ w r hb h =>
      have hw : w ∈ q.workers := by simpa [LawfulQM.reg] using busy_reg hi _ hb
      have hq : q' = { q with current := q.current.put w none } := (congrArg Prod.snd h).symm
      subst hq
      by_cases hne : x = w
      · subst hne; exact .inr ⟨_, rfl⟩
      · have hna := addr_ne_of_ne (Inv.addr_nodup hi) hw hst.1 hne
        exact .inl ⟨hst.1, by simpa only [getD_put_ne hna] using hst.2.1, hst.2.2⟩
    | @term _ w rs hw h =>
      have h : Single.workerTerminated q w = Except.ok ((rs, q') : List Req × Single) := h
      simp only [workerTerminated, Except.bind_eq_ok] at h
      obtain ⟨⟨out, keep⟩, hsj, h⟩ := h
      simp at h
      obtain ⟨_, rfl⟩ := h
      obtain ⟨h1, h2, e, he, hc⟩ := hst
      simp only [List.mem_filter, Bool.not_eq_true', decide_eq_false_iff_not] at h1
      refine .inl ⟨h1.1, ?_, e, splitJobs_sub hsj e he, hc⟩
      simpa only [WMap.getD, WMap.find_erase_of_ne h1.2] using h2
    | @enq _ now r res h =>
      change enqueueRequest π q now r = .ok (res, q') at h
      simp only [enqueueRequest, Except.bind_eq_ok] at h
      obtain ⟨o, ho, h⟩ := h
      rcases o with _ | w
      rotate_left
      · obtain ⟨hw, hcan⟩ := Policy.Lawful.selects ho
        simp at h
        obtain ⟨_, rfl⟩ := h
        have hw' : w ∈ q.workers := (Inv.memCur hi).1 (List.mem_map.2 ⟨_, hw, rfl⟩)
        by_cases hne : x = w
        · subst hne
          have := hst.2.1
          simp only [getD_put_self] at this
          cases this
        · have hna := addr_ne_of_ne (Inv.addr_nodup hi) hw' hst.1 hne
          exact .inl ⟨hst.1, by simpa only [getD_put_ne hna] using hst.2.1, hst.2.2⟩
      · have hall := Policy.Eager.none ho
        simp only [Except.bind_eq_ok] at h
        obtain ⟨b, hb, h⟩ := h
        cases b with
        | true =>
          simp at h
          obtain ⟨_, rfl⟩ := h
          obtain ⟨h1, h2, e, he, hc⟩ := hst
          simp only [List.mem_append, List.mem_singleton] at he
          rcases he with he | rfl
          · exact .inl ⟨h1, h2, e, he, hc⟩
          · exfalso
            have hm : (x, none) ∈ q.current := by
              obtain ⟨v, l, t, e1, e2, _⟩ := Inv.splitCur hi h1
              have : v = none := by rw [← e2]; exact h2
              rw [e1, this]; simp
            have := hall x hm
            rw [Worker.Can, this] at hc; cases hc
        | false =>
          simp at h
          obtain ⟨_, rfl⟩ := h
          exact .inl hst


/-- The worker took the entry: it satisfies it, and no other entry it satisfies comes before it. -/
structure Takes (π : Policy) (q : Single) (w : Worker) (e : Entry) (q' : Single) : Prop where
  reg : w ∈ q'.workers
  mem : e ∈ q.jobs
  can : w.Can e.1.headers
  first : ∀ e' ∈ q.jobs, e' ≠ e → w.Can e'.1.headers → π.before w e' e = false
  rest : (e :: q'.jobs).Perm q.jobs

theorem assign_takes [π.Lawful] {srt : Sorter} {q q' : Single} {w : Worker} {r : Req} (h : q.Inv)
    (hw : w ∈ q.workers) (he : assignRequest π srt q w = .ok (some r, q')) :
    ∃ e, r = e.1 ∧ Takes π q w e q' := by
  have hp := Policy.Lawful.perm (π := π) srt w q.jobs
  rcases assign_cases h hw he with ⟨h1, _⟩ | ⟨l1, e, l2, hl, ho, hc, hno, rfl⟩
  · cases h1
  · refine ⟨e, by simpa using ho, hw, hp.mem_iff.1 (by rw [hl]; simp), hc, ?_, ?_⟩
    · intro e' he' hne hc'
      have hs := Policy.Lawful.sorted (π := π) srt w q.jobs
      rw [hl] at hs
      have hm : e' ∈ l1 ++ e :: l2 := by rw [← hl]; exact hp.mem_iff.2 he'
      rcases List.mem_append.1 hm with hm | hm
      · have := hno e' hm
        rw [Worker.Can, this] at hc'; cases hc'
      · rcases List.mem_cons.1 hm with rfl | hm
        · exact absurd rfl hne
        · have := (List.pairwise_append.1 hs).2.1
          exact (List.pairwise_cons.1 this).1 e' hm
    · rw [hl] at hp
      exact List.perm_middle.symm.trans hp

/-- Evaluation messages caused by a message from a worker, single-queue manager: either the reported
    job is given out again, or the first waiting job is taken. -/
theorem step_takes [π.Lawful] {cfg : HConfig} {env : Env} {m : Msg} {s s' : HState (SingleOf π)} (h : HInv s)
    (hs : step cfg env m s = .ok () s') (hk : m.key = keyWorkers) {o : Msg} (ho : o ∈ s'.outs)
    (hev : Spec.isEval o = true) :
    (∃ w r text, m.data = ["done", r.jobId, "INTERNAL_ERROR", text] ∧ o = sendMsg w r ∧
      (∃ w0, (w0, r) ∈ LawfulQM.busy s.queue) ∧ r.complete = true ∧ ∀ e ∈ Single.jobs s.queue, e ∈ Single.jobs s'.queue) ∨
    ∃ w e, o = sendMsg w e.1 ∧ w.identity = m.identity ∧ Takes π s.queue w e s'.queue := by
  obtain ⟨ops, hp, hsh, hout⟩ := step_ops h hs
  have hmem : o ∈ evals (ops.flatMap QOp.sends) := by
    rw [← hout]; exact List.mem_filter.2 ⟨ho, isGive_of_eval hev⟩
  obtain ⟨hmem, _⟩ := List.mem_filter.1 hmem
  cases hsh with
  | none => simp at hmem
  | @init w cur x hk' hd hid hcur =>
    right
    cases x with
    | none => simp [QOp.sends, QOp.gives] at hmem
    | some r =>
      simp [QOp.sends, QOp.gives] at hmem
      subst hmem
      cases hp with
      | cons h1 ht =>
        have e1 := ht.nil_inv
        cases h1 with
        | add hw hf h1 =>
          have hf' : w.addr ∉ (Single.workers s.queue).map (·.addr) := by simpa [LawfulQM.reg] using hf
          cases cur with
          | some r0 =>
            change (.ok (some r0, _) : Except Exn _) = _ at h1
            cases h1
            obtain ⟨n, j, rfl⟩ := hcur _ rfl
            rw [Req.incomplete_not_eval] at hev; cases hev
          | none =>
            obtain ⟨e, rfl, ht⟩ := assign_takes (π := π)
              (Single.Inv.add (q := s.queue) h.qinv hw hf' none).1 (by simp) h1
            rw [← e1] at ht
            exact ⟨w, e, rfl, hid, ht.reg, ht.mem, ht.can, ht.first, ht.rest⟩
  | @ok w x j rest hk' hd hid =>
    right
    cases x with
    | none => simp [QOp.sends, QOp.gives] at hmem
    | some r =>
      simp [QOp.sends, QOp.gives] at hmem
      subst hmem
      cases hp with
      | cons h1 ht =>
        have e1 := ht.nil_inv
        cases h1 with
        | finish hb h1 =>
          obtain ⟨e, rfl, ht⟩ := assign_takes (π := π) h.qinv
            (by simpa [LawfulQM.reg] using busy_reg h.qinv _ hb) h1
          rw [← e1] at ht
          exact ⟨w, e, rfl, (regFind_mem hid).2, ht⟩
  | @failed w r0 x st text hk' hd hst hid =>
    right
    cases x with
    | none => simp [QOp.sends, QOp.gives] at hmem
    | some r =>
      simp [QOp.sends, QOp.gives] at hmem
      subst hmem
      cases hp with
      | @cons _ q1 _ _ _ h1 ht =>
        have hi1 := h1.inv h.qinv
        cases h1 with
        | cancel hb hc =>
          have hq : q1 = (⟨Single.jobs s.queue, (Single.current s.queue).put w none,
            Single.workers s.queue⟩ : Single) :=
            (congrArg Prod.snd hc).symm
          subst hq
          cases ht with
          | cons h2 ht2 =>
            have e1 := ht2.nil_inv (Q := SingleOf π)
            cases h2 with
            | assign hw _ h2 =>
              obtain ⟨e, rfl, ht⟩ := assign_takes (π := π) hi1 (by simpa [LawfulQM.reg] using hw) h2
              rw [← e1] at ht
              exact ⟨w, e, rfl, (regFind_mem hid).2, ht.reg, ht.mem, ht.can, ht.first, ht.rest⟩
  | adopted hk' hd hid hc => simp [QOp.sends, QOp.gives] at hmem
  | @again w r text now res hk' hd hid hc =>
    left
    simp [QOp.sends, QOp.gives] at hmem
    obtain ⟨a', ha', rfl⟩ := hmem
    refine ⟨a', r, text, hd, rfl, ?_⟩
    cases hp with
    | @cons _ q1 _ _ _ h1 ht =>
      cases h1 with
      | cancel hb hc =>
        have hq : q1 = (⟨Single.jobs s.queue, (Single.current s.queue).put w none,
            Single.workers s.queue⟩ : Single) :=
          (congrArg Prod.snd hc).symm
        subst hq
        refine ⟨⟨w, hb⟩, by assumption, fun e he => ?_⟩
        cases ht with
        | @cons _ q2 _ _ _ h2 ht2 =>
          have e1 := ht2.nil_inv (Q := SingleOf π)
          rw [e1]
          cases h2 with
          | enq h2 =>
            have h2 : enqueueRequest π _ now r = Except.ok ((res, q2) : EnqResult × Single) := h2
            simp only [enqueueRequest, Except.bind_eq_ok] at h2
            obtain ⟨o, ho, h2⟩ := h2
            rcases o with _ | w
            rotate_left
            · simp at h2
              obtain ⟨_, rfl⟩ := h2
              exact he
            · simp only [Except.bind_eq_ok] at h2
              obtain ⟨b, hb, h2⟩ := h2
              cases b <;> simp at h2 <;> obtain ⟨_, rfl⟩ := h2 <;> simp [he]
  | eval hk' hd _ _ hc => exact absurd (hk.symm.trans hk') (by decide)
  | timer hk' _ => exact absurd (hk.symm.trans hk') (by decide)


end SingleOf
end Broker
