import Verif.Props.Queues
import Verif.Props.Workers

/-!
# Completions and the queues

What a report of a completed (or failed) job does to the queue managers.
-/

set_option linter.unusedSectionVars false

namespace Broker

open LawfulQM

variable {Q : Type} [QueueManager Q] [LawfulQM Q]

/-- The message reports that the worker completed (or failed) the job it processes: `done` with status
    `OK`, or with status `FAILED` and an explanation. -/
def Spec.Completes (w : Worker) (t : Tr Q) : Prop :=
  t.msg.key = "workers" ∧ ∃ r st rest, Spec.Processing t.msg.identity w r t.pre ∧
    t.msg.data = "done" :: r.jobId :: st :: rest ∧ (st = "OK" ∨ st = "FAILED" ∧ rest.length = 1)

theorem completes_ops {cfg : HConfig} {env : Env} {h : List (Tr Q)} {t : Tr Q}
    (hr : Run cfg env h t.pre) (hs : step cfg env t.msg t.pre = .ok () t.post) {w : Worker}
    (hc : Spec.Completes w t) :
    ∃ o, (QPath env.srt t.pre.queue [.finish w o] t.post.queue ∨
      ∃ r, QPath env.srt t.pre.queue [.cancel w r, .assign w o] t.post.queue) ∧
      evals t.outs = evals (o.map (sendMsg w)).toList := by
  obtain ⟨hk, r, st, rest, hp, hd, hst⟩ := hc
  have hh := hr.inv.1
  obtain ⟨hw, hb⟩ := (processing_iff hh).1 hp
  obtain ⟨ops, g1, g2, g3⟩ := step_ops hh hs
  have g3 : evals t.outs = evals (ops.flatMap QOp.sends) := g3
  have hne : ops ≠ [] := by
    intro he
    subst he
    have hq := g1.nil_inv
    obtain ⟨s', evs, hs', hi, -, hds⟩ := done_report (cfg := cfg) (env := env) hh hk hd hp
    rw [hs] at hs'
    cases hs'
    have h1 := hi.steps.held_count (fun _ => True)
    have h4 : (ls t.post 0).held = (ls t.pre 0).held := by simp [LS.held, ls, hq]
    rw [h4] at h1
    have hnx : ∀ {t}, Next w t → (t.map (fun e : Ev => e.enters.countP (fun _ => True))).sum = 0 := by
      intro t ht
      cases ht <;> simp [Ev.enters]
    cases hds with
    | ok _ ht =>
      have := hnx ht
      rw [List.map_cons, List.map_cons, List.sum_cons, List.sum_cons, this] at h1
      simp [Ev.leaves, Ev.enters] at h1
    | failed _ _ ht =>
      have := hnx ht
      rw [List.map_cons, List.map_cons, List.sum_cons, List.sum_cons, this] at h1
      simp [Ev.leaves, Ev.enters] at h1
    | adopted h => rcases hst with h' | ⟨h', _⟩ <;> rw [h] at h' <;> exact absurd h' (by decide)
    | exhausted h => rcases hst with h' | ⟨h', _⟩ <;> rw [h] at h' <;> exact absurd h' (by decide)
    | resent h => rcases hst with h' | ⟨h', _⟩ <;> rw [h] at h' <;> exact absurd h' (by decide)
    | parked h => rcases hst with h' | ⟨h', _⟩ <;> rw [h] at h' <;> exact absurd h' (by decide)
    | ignored _ h =>
      rcases hst with h' | ⟨h', h2⟩
      · exact h.1 h'
      · rcases h.2 with h3 | h3
        · exact h3.2 h'
        · exact h3 h2
  cases g2 with
  | none => exact absurd rfl hne
  | init _ hd' => rw [hd] at hd'; simp at hd'
  | @ok w' o _ _ _ _ hi =>
    rw [hw] at hi
    cases hi
    refine ⟨o, .inl g1, ?_⟩
    rw [g3]
    cases o <;> rfl
  | @failed w' r' o _ _ _ _ _ hi =>
    rw [hw] at hi
    cases hi
    refine ⟨o, .inr ⟨r', g1⟩, ?_⟩
    rw [g3]
    cases o <;> rfl
  | adopted _ hd' =>
    rw [hd] at hd'
    simp only [List.cons.injEq] at hd'
    rcases hst with h' | ⟨h', _⟩ <;> rw [hd'.2.2.1] at h' <;> exact absurd h' (by decide)
  | again _ hd' =>
    rw [hd] at hd'
    simp only [List.cons.injEq] at hd'
    rcases hst with h' | ⟨h', _⟩ <;> rw [hd'.2.2.1] at h' <;> exact absurd h' (by decide)
  | eval hk' => exact absurd (hk.symm.trans hk') wkey_ne_ckey
  | timer hk' => exact absurd (hk.symm.trans hk') wkey_ne_tkey

theorem isGive_sendMsg {cfg : HConfig} {env : Env} {h : List (Tr Q)} {s : HState Q}
    (hr : Run cfg env h s) {r : Req} (hq : r ∈ que s.queue) (w : Worker) :
    isGive (sendMsg w r) = true ∧ sendMsg w r = ⟨"workers", w.identity, r.frames⟩ := by
  obtain ⟨fs, k, _⟩ := hr.waiting_origin hq
  refine ⟨isGive_of_eval ?_, rfl⟩
  simp [Spec.isEval, sendMsg, k.frames, keyWorkers]

namespace Single

/-- Entries that are at most this young. -/
def older (T : Int) (q : Single) : Nat := q.jobs.countP (fun e => e.2 ≤ T)

theorem splitJobs_sublist {ws : List Worker} : ∀ {l : List Entry} {out : List Req} {keep : List Entry},
    splitJobs ws l = .ok (out, keep) → keep.Sublist l := by
  intro l
  induction l with
  | nil => intro out keep h; cases h; exact List.Sublist.refl _
  | cons e t ih =>
    intro out keep h
    simp only [splitJobs, Except.bind_eq_ok] at h
    obtain ⟨b, hb, ⟨o, k⟩, h1, h2⟩ := h
    cases b
    · simp at h2
      obtain ⟨_, rfl⟩ := h2
      exact (ih h1).cons _
    · simp at h2
      obtain ⟨_, rfl⟩ := h2
      exact (ih h1).cons_cons _

theorem older_assign {srt : Sorter} {q q' : Single} {w : Worker} {o : Option Req} {T : Int} (hi : q.Inv)
    (hw : w ∈ q.workers) (h : q.assignRequest srt w = .ok (o, q')) : older T q' ≤ older T q := by
  have hp := srt.perm q.jobs
  unfold older
  rcases assign_cases hi hw h with ⟨_, rfl, _⟩ | ⟨l1, x, l2, hl, _, _, _, rfl⟩
  · rw [hp.countP_eq]
  · rw [← hp.countP_eq, hl]
    simp only [List.countP_append, List.countP_cons]
    omega

theorem older_step {srt : Sorter} {q q' : Single} {op : QOp} {T : Int} (hi : q.Inv)
    (hs : QStep srt q op q') (hlate : ∀ now r res, op = .enq now r res → T < now) :
    older T q' ≤ older T q := by
  cases hs with
  | @add _ w cur o hw hf h =>
    have hf' : w.addr ∉ q.workers.map (·.addr) := by simpa [LawfulQM.reg] using hf
    cases cur with
    | some r =>
      change (.ok (some r, _) : Except Exn _) = _ at h
      cases h
      exact Nat.le_refl _
    | none =>
      exact older_assign (q := ⟨q.jobs, q.current.put w none, q.workers ++ [w]⟩) (q' := q') (w := w)
        (o := o) (Inv.add (q := q) hi hw hf' none).1 (by simp) h
  | assign hw _ h => exact older_assign hi (by simpa [LawfulQM.reg] using hw) h
  | finish hb h => exact older_assign hi (by simpa [LawfulQM.reg] using busy_reg hi _ hb) h
  | @cancel _ w r hb h =>
    have hq : q' = { q with current := q.current.put w none } := (congrArg Prod.snd h).symm
    subst hq
    exact Nat.le_refl _
  | @term _ w rs hw h =>
    change q.workerTerminated w = _ at h
    simp only [workerTerminated, Except.bind_eq_ok] at h
    obtain ⟨⟨out, keep⟩, hsj, h⟩ := h
    simp at h
    obtain ⟨_, rfl⟩ := h
    exact (splitJobs_sublist hsj).countP_le
  | @enq _ now r res h =>
    change q.enqueueRequest now r = .ok (res, q') at h
    simp only [enqueueRequest, Except.bind_eq_ok] at h
    obtain ⟨o, ho, h⟩ := h
    rcases select_ok ho with ⟨w, rfl, hw, hcan⟩ | ⟨rfl, hall⟩
    · simp at h
      obtain ⟨_, rfl⟩ := h
      exact Nat.le_refl _
    · simp only [Except.bind_eq_ok] at h
      obtain ⟨b, hb, h⟩ := h
      cases b with
      | true =>
        simp at h
        obtain ⟨_, rfl⟩ := h
        have := hlate now r res rfl
        unfold older
        rw [List.countP_append]
        simp [Int.not_le.2 this]
      | false =>
        simp at h
        obtain ⟨_, rfl⟩ := h
        exact Nat.le_refl _

theorem older_path {srt : Sorter} {q q' : Single} {ops : List QOp} {T : Int} (hp : QPath srt q ops q')
    (hi : q.Inv) (hlate : ∀ now r res, QOp.enq now r res ∈ ops → T < now) :
    older T q' ≤ older T q := by
  induction hp with
  | nil => exact Nat.le_refl _
  | @cons q q1 q2 op ops h _ ih =>
    refine Nat.le_trans (ih (h.inv (Q := Single) hi) fun now r res h => hlate now r res (by simp [h])) ?_
    exact older_step hi h (fun now r res h => hlate now r res (by simp [h]))

end Single

/-- A report of completion by a worker that satisfies a waiting job takes a job that is no younger. -/
theorem completes_older {cfg : HConfig} {env : Env} {h : List (Tr Single)} {t : Tr Single}
    (hr : Run cfg env h t.pre) (hs : step cfg env t.msg t.pre = .ok () t.post) {w : Worker}
    (hc : Spec.Completes w t) {e : Entry} (he : e ∈ t.pre.queue.jobs) (hcan : w.Can e.1.headers) :
    Single.older e.2 t.post.queue + 1 ≤ Single.older e.2 t.pre.queue := by
  have hi : Single.Inv t.pre.queue := hr.inv.1.qinv
  have hass : ∀ (q q' : Single) o, q.Inv → q.jobs = t.pre.queue.jobs → w ∈ q.workers →
      q.assignRequest env.srt w = .ok (o, q') →
      Single.older e.2 q' + 1 ≤ Single.older e.2 t.pre.queue := by
    intro q q' o hi h0 hw h
    cases o with
    | none =>
      rcases Single.assign_cases hi hw h with ⟨_, _, h1⟩ | ⟨_, _, _, _, h1, _⟩
      · have := h1 e (h0 ▸ he)
        rw [Worker.Can, this] at hcan
        cases hcan
      · cases h1
    | some r =>
      obtain ⟨x, _, hx⟩ := Single.assign_takes hi hw h
      unfold Single.older
      rw [← h0, ← hx.rest.countP_eq, List.countP_cons_of_pos]
      simpa using hx.first e (h0 ▸ he) hcan
  obtain ⟨o, g1, _⟩ := completes_ops hr hs hc
  rcases g1 with g1 | ⟨r', g1⟩
  · cases g1 with
    | cons h1 ht =>
      rw [ht.nil_inv]
      cases h1 with
      | @finish _ _ r _ hb h =>
        have hw : w ∈ t.pre.queue.workers := by simpa [LawfulQM.reg] using busy_reg hi _ hb
        exact hass _ _ _ hi rfl hw h
  · cases g1 with
    | cons h1 ht =>
      cases ht with
      | cons h2 ht =>
        rw [ht.nil_inv]
        have hi1 := h1.inv (Q := Single) hi
        cases h1 with
        | cancel hb h =>
          cases h2 with
          | assign hw hidle h' =>
            exact hass _ _ _ hi1 (congrArg (fun p => p.2.jobs) h.symm)
              (by simpa [LawfulQM.reg] using hw) h'

end Broker
