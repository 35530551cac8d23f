import Verif.Proof.Order
import Verif.Proof.Liveness
import Verif.Props.Queues

/-!
# Lemmas for C79: how the multi-queue manager spreads jobs
-/

set_option linter.unusedSectionVars false

namespace Broker

open LawfulQM

/-- A timer message that removes no worker leaves the queues alone. -/
theorem timer_quiet {Q : Type} [QueueManager Q] [LawfulQM Q] {cfg : HConfig} {env : Env}
    {s : HState Q} {data : List String} (h : HInv s) :
    wp (processTimer cfg env data) s
      (fun _ s' => s'.queue = s.queue ∨ s'.workers ≠ s.workers) AnyErr := by
  cases data with
  | nil => trivial
  | cons f rest =>
    simp only [processTimer, wp_bind, wp_liftE]
    cases ht : stoll f with
    | error x => trivial
    | ok time =>
      simp only [wp_bind, wp_get]
      refine wp_mono (wp_tickWorkers h.addr_nodup) ?_ (fun _ _ hE => hE)
      rintro xs s1 ⟨htf, hsub, _⟩
      have hinv1 : HInv s1 := h.of_eq (by rw [htf]) (by rw [htf])
      have hw1 : s1.workers = s.workers := by rw [htf]
      have hn : xs.Nodup := hsub.nodup (List.Nodup.of_map _ h.addr_nodup)
      have hm : ∀ w ∈ xs, w ∈ s1.workers := fun w hw => by rw [hw1]; exact hsub.subset hw
      cases xs with
      | nil =>
        simp only [expireWorkers, wp_pure]
        refine wp_mono (wp_updateGauges hinv1) ?_ (fun _ _ hE => hE)
        rintro _ s3 ⟨h3, _⟩
        left
        rw [h3]; show s1.queue = _; rw [htf]
      | cons x t =>
        refine wp_mono (wp_expireWorkers (cfg := cfg) (env := env) (hand := 0) hinv1 hn hm) ?_
          (fun _ _ hE => hE.elim)
        rintro _ s2 ⟨_, hw2, evs, hsim2, _⟩
        refine wp_mono (wp_updateGauges hsim2.inv) ?_ (fun _ _ hE => hE)
        rintro _ s3 ⟨h3, _⟩
        right
        intro he
        have h1 : s3.workers = removeAll (x :: t) s1.workers := by rw [h3]; exact hw2
        have h2 := (mem_removeAll hinv1.addr_nodup hn hm x).1
          (by rw [← h1, he, ← hw1]; exact hm x (by simp))
        exact h2.2 (by simp)

theorem step_timer_quiet {Q : Type} [QueueManager Q] [LawfulQM Q] {cfg : HConfig} {env : Env}
    {s s' : HState Q} {m : Msg} (h : HInv s) (hk : m.key = keyTimer)
    (hs : step cfg env m s = .ok () s') (hw : s'.workers = s.workers) : s'.queue = s.queue := by
  have h1 := timer_quiet (cfg := cfg) (env := env) (s := { s with outs := [] }) (data := m.data)
    (h.of_eq rfl rfl)
  unfold step onRequest at hs
  rw [hk, if_neg (by decide), if_neg (by decide), if_pos rfl] at hs
  unfold wp at h1
  rw [hs] at h1
  rcases h1 with h1 | h1
  · exact h1
  · exact absurd hw h1

namespace Multi

/-- Jobs a worker is responsible for: the one it processes and those in its queue. -/
def load (q : Multi) (w : Worker) : Nat :=
  (q.current.getD w none).toList.length + (q.of w).length

theorem addr_ne {q : Multi} (hi : q.Inv) {x w : Worker} (hx : x ∈ q.ring) (hw : w ∈ q.ring)
    (hne : x ≠ w) : x.addr ≠ w.addr := fun he =>
  hne (List.inj_on_of_nodup_map hi.addr_nodup hx hw he)

/-- Enqueueing raises the load of the worker chosen, by one. -/
theorem enqueue_load {q q' : Multi} {r : Req} {res : EnqResult} (hi : q.Inv)
    (h : q.enqueueRequest r = .ok (res, q')) :
    q' = q ∨ ∃ l1 w l2, q.ring = l1 ++ w :: l2 ∧ q'.ring = l1 ++ l2 ++ [w] ∧ w.Can r.headers ∧
      (∀ x ∈ l1, x.checkHeaders r.headers = .ok false) ∧ q'.load w = q.load w + 1 ∧
      ∀ x ∈ q.ring, x ≠ w → q'.load x = q.load x := by
  simp only [enqueueRequest, Except.bind_eq_ok] at h
  obtain ⟨o, ho, h⟩ := h
  cases o with
  | none => cases h; exact .inl rfl
  | some w =>
    obtain ⟨l1, l2, e1, h2, h3⟩ := findWorker_split ho
    have hn := hi.addr_nodup
    rw [e1] at hn
    have e2 : listRemove w q.ring ++ [w] = l1 ++ l2 ++ [w] := by rw [e1, listRemove_split hn]
    have hw : w ∈ q.ring := by rw [e1]; simp
    right
    cases hc : q.current.getD w none with
    | none =>
      simp only [hc] at h
      cases h
      refine ⟨l1, w, l2, e1, e2, h2, h3, ?_, ?_⟩
      · simp [load, of, hc, Single.getD_put_self]; omega
      · intro x hx hne
        simp [load, of, Single.getD_put_ne (addr_ne hi hx hw hne)]
    | some c =>
      simp only [hc] at h
      cases h
      refine ⟨l1, w, l2, e1, e2, h2, h3, ?_, ?_⟩
      · simp [load, of, hc, getDq_put_self]; omega
      · intro x hx hne
        simp [load, of, getDq_put_ne (addr_ne hi hx hw hne)]

end Multi

end Broker
