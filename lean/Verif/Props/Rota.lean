import Verif.Proof.QueueSim
import Verif.Proof.WMap
import Verif.Proof.Layout
import Verif.Spec.Rota
import Verif.Spec.Exec
import Verif.Props.Fifo

/-!
# C87: what the multi-queue manager does

The multi-queue manager has a queue for each worker, in a map ordered by the addresses of the worker
objects.  What can be seen of it is one line of requests, each promised to a worker, and workers
that take turns.
-/

namespace Broker

namespace WMap
variable {V : Type}

theorem find_absent {m : WMap V} {w : Worker} (h : ∀ e ∈ m, e.1.addr ≠ w.addr) :
    WMap.find w m = none := by
  induction m with
  | nil => rfl
  | cons p t ih =>
    obtain ⟨x, u⟩ := p
    have h0 := h _ (List.mem_cons_self ..)
    simp only at h0
    simp only [find, if_neg h0]
    exact ih fun e he => h e (List.mem_cons_of_mem _ he)

theorem find_before {x w : Worker} {u : V} {t : WMap V} (hs : WMap.Sorted ((x, u) :: t))
    (hl : w.addr < x.addr) : WMap.find w t = none := by
  refine find_absent fun e he => ?_
  have : x.addr < e.1.addr := (List.pairwise_cons.1 hs).1 e he
  omega

/-- Insertion unless present. -/
theorem emplace_eq {m : WMap V} (hs : m.Sorted) (w : Worker) (v : V) :
    m.emplace w v = m.put w ((m.find w).getD v) := by
  induction m with
  | nil => rfl
  | cons p t ih =>
    obtain ⟨x, u⟩ := p
    simp only [emplace, WMap.put, find]
    by_cases h : x.addr = w.addr
    · simp [h]
    · by_cases hl : w.addr < x.addr
      · simp [h, hl, find_before hs hl]
      · simp only [if_neg h, if_neg hl, ih (List.pairwise_cons.1 hs).2]

theorem Sorted.erase {m : WMap V} (hs : m.Sorted) (w : Worker) : (m.erase w).Sorted := by
  refine hs.sublist ?_
  clear hs
  induction m with
  | nil => exact List.Sublist.refl _
  | cons p t ih =>
    obtain ⟨x, u⟩ := p
    simp only [WMap.erase]
    split
    · exact List.sublist_cons_self _ _
    · exact ih.cons_cons _

theorem find_erase {m : WMap V} (hs : m.Sorted) (w x : Worker) :
    (m.erase w).find x = if x.addr = w.addr then none else m.find x := by
  induction m with
  | nil => simp [WMap.erase, find]
  | cons p t ih =>
    obtain ⟨y, u⟩ := p
    obtain ⟨h1, h2⟩ := List.pairwise_cons.1 hs
    simp only [WMap.erase]
    by_cases hy : y.addr = w.addr
    · rw [if_pos hy]
      by_cases hx : x.addr = w.addr
      · rw [if_pos hx]
        refine find_absent fun e he => ?_
        have : y.addr < e.1.addr := h1 e he
        omega
      · have : y.addr ≠ x.addr := by omega
        simp [hx, find, this]
    · rw [if_neg hy]
      simp only [find, ih h2]
      split
      · rename_i h
        rw [if_neg (by omega)]
      · rfl

theorem find_put (m : WMap V) (w x : Worker) (v : V) :
    (m.put w v).find x = if x.addr = w.addr then some v else m.find x := by
  split
  · rename_i h
    have e : ∀ m : WMap V, m.find x = m.find w := by
      intro m
      induction m with
      | nil => rfl
      | cons p t ih => simp only [find, h, ih]
    rw [e, find_put_self]
  · rename_i h
    exact find_put_of_ne h

/-- Number of waiting requests. -/
theorem sum_put {m : WMap (List Req)} (hs : m.Sorted) (w : Worker) (l : List Req) :
    ((m.put w l).map fun e => e.2.length).sum + (m.getD w []).length =
      (m.map fun e => e.2.length).sum + l.length := by
  induction m with
  | nil => simp [WMap.put, getD, find]
  | cons p t ih =>
    obtain ⟨x, u⟩ := p
    have ih := ih (List.pairwise_cons.1 hs).2
    simp only [WMap.put, getD, find] at ih ⊢
    by_cases h : x.addr = w.addr
    · simp [h]; omega
    · by_cases hl : w.addr < x.addr
      · simp [h, hl, find_before hs hl]; omega
      · simp [h, hl]; omega

theorem sum_erase (m : WMap (List Req)) (w : Worker) :
    ((m.erase w).map fun e => e.2.length).sum + (m.getD w []).length =
      (m.map fun e => e.2.length).sum := by
  induction m with
  | nil => simp [WMap.erase, getD, find]
  | cons p t ih =>
    obtain ⟨x, u⟩ := p
    simp only [WMap.erase, getD, find] at ih ⊢
    by_cases h : x.addr = w.addr
    · simp [h]; omega
    · simp [h]; omega

end WMap

namespace Rota

/-- What the queues have in common. -/
structure Like (q : Multi) (f : Rota) : Prop where
  turns : f.turns = q.ring
  cur : q.current.Sorted
  que : q.queues.Sorted
  doing : ∀ w, q.current.find w = f.doing w.addr
  line : ∀ w, q.queues.getD w [] = (f.line.filter fun p => p.1 = w.addr).map (·.2)
  sum : q.queuedCount = f.line.length

theorem first_eq (r : Req) (l : List Worker) : first r l = Multi.findWorker r.headers l := by
  induction l with
  | nil => rfl
  | cons w ws ih => unfold first Multi.findWorker; rw [ih]

theorem pop_none {a : Nat} {l : List (Nat × Req)} (h : l.filter (fun p => p.1 = a) = []) :
    pop a l = none := by
  induction l with
  | nil => rfl
  | cons p t ih =>
    by_cases hp : p.1 = a
    · simp [hp] at h
    · simp only [List.filter_cons, hp, decide_false, Bool.false_eq_true, if_false] at h
      simp [pop, hp, ih h]

theorem pop_some {a : Nat} {l : List (Nat × Req)} {r : Req} {t : List Req}
    (h : (l.filter fun p => p.1 = a).map (·.2) = r :: t) : ∃ l', pop a l = some (r, l') ∧
      (l'.filter fun p => p.1 = a).map (·.2) = t ∧
      (∀ b, b ≠ a → l'.filter (fun p => p.1 = b) = l.filter fun p => p.1 = b) ∧
      l'.length + 1 = l.length := by
  induction l with
  | nil => simp at h
  | cons p l ih =>
    by_cases hp : p.1 = a
    · simp only [List.filter_cons, hp, decide_true, if_true, List.map_cons, List.cons.injEq] at h
      refine ⟨l, by simp [pop, hp, h.1], h.2, fun b hb => ?_, rfl⟩
      have : p.1 ≠ b := fun h => hb (h ▸ hp)
      simp [this]
    · simp only [List.filter_cons, hp, decide_false, Bool.false_eq_true, if_false] at h
      obtain ⟨l', h1, h2, h3, h4⟩ := ih h
      refine ⟨p :: l', by simp [pop, hp, h1], by simpa [hp] using h2, fun b hb => ?_, by simp [h4]⟩
      simp only [List.filter_cons, h3 b hb]

variable {q : Multi} {f : Rota}

theorem Like.job (h : Like q f) (w : Worker) : f.job w = q.current.getD w none := by
  unfold Rota.job WMap.getD
  rw [h.doing]

theorem Like.give (h : Like q f) (w : Worker) (r : Option Req) :
    Like { q with current := q.current.put w r } (f.give w r) where
  turns := h.turns
  cur := h.cur.put w r
  que := h.que
  doing x := by
    show WMap.find x (WMap.put w r q.current) = _
    rw [WMap.find_put, h.doing]; rfl
  line := h.line
  sum := h.sum

theorem Like.know (h : Like q f) (w : Worker) (r : Option Req) :
    Like { q with current := q.current.emplace w r } (f.know w r) := by
  rw [WMap.emplace_eq h.cur]
  unfold Rota.know
  by_cases hd : f.doing w.addr = none
  · rw [if_pos hd, h.doing, hd]
    exact h.give w r
  · rw [if_neg hd]
    obtain ⟨v, hv⟩ := Option.ne_none_iff_exists'.1 hd
    have := h.give w v
    rw [h.doing, hv]
    have e : f.give w v = f := by
      unfold Rota.give
      have : (fun a => if a = w.addr then some v else f.doing a) = f.doing := by
        funext a
        split
        · rename_i ha; rw [ha, hv]
        · rfl
      rw [this]
    rw [e] at this
    exact this

theorem Like.empty (h : Like q f) (w : Worker) :
    Like { q with queues := q.queues.emplace w [] } f := by
  rw [WMap.emplace_eq h.que]
  refine ⟨h.turns, h.cur, h.que.put _ _, h.doing, fun x => ?_, ?_⟩
  · rw [← h.line]
    show (WMap.find x (WMap.put w _ q.queues)).getD [] = (WMap.find x q.queues).getD []
    rw [WMap.find_put]
    split
    · rename_i hx
      have e : ∀ m : WMap (List Req), m.find x = m.find w := by
        intro m
        induction m with
        | nil => rfl
        | cons p t ih => simp only [WMap.find, hx, ih]
      rw [e]; rfl
    · rfl
  · rw [← h.sum]
    have := WMap.sum_put h.que w (WMap.getD w [] q.queues)
    show List.sum _ = List.sum _
    have e : (WMap.find w q.queues).getD [] = WMap.getD w [] q.queues := rfl
    rw [e]
    show ((WMap.put w (WMap.getD w [] q.queues) q.queues).map fun e => e.2.length).sum =
      (q.queues.map fun e => e.2.length).sum
    omega

theorem Like.next (h : Like q f) (w : Worker) :
    (f.next w).1 = (q.assignRequest w).1 ∧ Like (q.assignRequest w).2 (f.next w).2 := by
  unfold Multi.assignRequest Rota.next
  cases hq : q.queues.getD w [] with
  | nil =>
    have h1 := h.line w
    rw [hq] at h1
    rw [pop_none (List.map_eq_nil_iff.1 h1.symm)]
    exact ⟨rfl, h.empty w⟩
  | cons r t =>
    have h1 := h.line w
    rw [hq] at h1
    obtain ⟨l', h2, h3, h4, h5⟩ := pop_some h1.symm
    rw [h2]
    refine ⟨rfl, Like.give (q := { q with queues := q.queues.put w t })
      (f := { f with line := l' }) ⟨h.turns, h.cur, h.que.put _ _, h.doing, fun x => ?_, ?_⟩ w
      (some r)⟩
    · show (WMap.find x (WMap.put w t q.queues)).getD [] = _
      rw [WMap.find_put]
      split
      · rename_i hx
        rw [hx]; exact h3.symm
      · rename_i hx
        show WMap.getD x [] q.queues = _
        rw [h.line, h4 _ hx]
    · have h6 := WMap.sum_put h.que w t
      have h7 := h.sum
      unfold Multi.queuedCount at h7 ⊢
      rw [hq] at h6
      show ((q.queues.put w t).map fun e => e.2.length).sum = l'.length
      simp only [List.length_cons] at h6
      omega

theorem Like.submit (h : Like q f) (r : Req) :
    SameRes (fun a b => b.1 = a.1 ∧ Like a.2 b.2) (q.enqueueRequest r) (f.submit r) := by
  unfold Multi.enqueueRequest Rota.submit
  rw [h.turns, first_eq]
  cases Multi.findWorker r.headers q.ring with
  | error e => exact .error e
  | ok o =>
    cases o with
    | none => exact .ok ⟨rfl, h⟩
    | some w =>
      simp only [Except.bind_ok]
      have h0 : Like { q with ring := Multi.listRemove w q.ring ++ [w] }
          { f with turns := q.ring.filter (fun x => x.addr ≠ w.addr) ++ [w] } :=
        ⟨rfl, h.cur, h.que, h.doing, h.line, h.sum⟩
      have e := h0.job w
      simp only at e
      rw [e]
      cases hc : q.current.getD w none with
      | none => exact .ok ⟨rfl, h0.give w (some r)⟩
      | some x =>
        refine .ok ⟨rfl, ⟨rfl, h.cur, h.que.put _ _, h.doing, fun x => ?_, ?_⟩⟩
        · show (WMap.find x (WMap.put w _ q.queues)).getD [] = _
          rw [WMap.find_put]
          simp only [List.filter_append, List.map_append]
          split
          · rename_i hx
            rw [h.line w, hx]
            simp
          · rename_i hx
            have : WMap.getD x [] q.queues = _ := h.line x
            have e : (WMap.find x q.queues).getD [] = WMap.getD x [] q.queues := rfl
            rw [e, this]
            simp [Ne.symm hx]
        · have h6 := WMap.sum_put h.que w (WMap.getD w [] q.queues ++ [r])
          have h7 := h.sum
          unfold Multi.queuedCount at h7 ⊢
          simp only [List.length_append, List.length_cons, List.length_nil] at h6 ⊢
          omega

theorem Like.remove (h : Like q f) (w : Worker) :
    (f.remove w).1 = (q.workerTerminated w).1 ∧ Like (q.workerTerminated w).2 (f.remove w).2 := by
  unfold Multi.workerTerminated Rota.remove
  rw [h.job, h.turns]
  refine ⟨by rw [h.line], rfl, h.cur.erase w, h.que.erase w, fun x => ?_, fun x => ?_, ?_⟩
  · show WMap.find x (WMap.erase w q.current) = _
    rw [WMap.find_erase h.cur, h.doing]
  · show (WMap.find x (WMap.erase w q.queues)).getD [] = _
    rw [WMap.find_erase h.que]
    simp only [List.filter_filter]
    split
    · rename_i hx
      symm
      simp only [Option.getD_none, List.map_eq_nil_iff, List.filter_eq_nil_iff]
      intro p _
      simp [hx]
    · rename_i hx
      have e : (WMap.find x q.queues).getD [] = WMap.getD x [] q.queues := rfl
      rw [e, h.line]
      congr 1
      refine List.filter_congr fun p _ => ?_
      by_cases hp : p.1 = x.addr
      · simp [hp, hx]
      · simp [hp]
  · have h6 := WMap.sum_erase q.queues w
    have h7 := h.sum
    have h8 : (f.line.filter fun p => p.1 = w.addr).length +
        (f.line.filter fun p => p.1 ≠ w.addr).length = f.line.length := by
      clear h6 h7 h
      induction f.line with
      | nil => rfl
      | cons p t ih => by_cases hp : p.1 = w.addr <;> simp [hp] at ih ⊢ <;> omega
    rw [h.line w, List.length_map] at h6
    unfold Multi.queuedCount at h7 ⊢
    show ((q.queues.erase w).map fun e => e.2.length).sum = List.length (f.line.filter fun p => p.1 ≠ w.addr)
    omega

/-- The two queue managers give the same answers. -/
theorem sim {env env' : Env} (ha : env'.alloc = env.alloc) :
    QSim (Q := Multi) (Q' := Rota) env env' fun _ => Like where
  alloc := ha
  empty := ⟨rfl, List.Pairwise.nil, List.Pairwise.nil, fun _ => rfl, fun _ => rfl, rfl⟩
  addWorker w c h := by
    have h1 := (h.know w c).empty w
    exact .ok ⟨rfl, ⟨by show _ :: _ = _ :: _; rw [h.turns], h1.cur, h1.que, h1.doing, h1.line, h1.sum⟩⟩
  assign w h := .ok (h.next w)
  finished w h := .ok ((h.give w none).next w)
  terminated w h := .ok (h.remove w)
  enqueue r h := h.submit r
  queued h := h.sum.symm
  current w h := ⟨h.job w, h.know w none⟩
  cancelled w h := ⟨h.job w, h.give w none⟩

end Rota

/-- **C87.** The broker with the multi-queue manager cannot be told apart from one with a single line of
    requests, each promised to a worker: whatever messages come, it sends the same messages and fails
    in the same way. -/
theorem C87_rota (cfg : HConfig) (env : Env) (ms : List Msg) :
    observed Multi cfg env ms = observed Rota cfg env ms :=
  (observed_sim (Rota.sim (env := env) (env' := env) rfl) cfg ms).symm

/-- **C87.** The same for the queue manager alone: it answers all sequences of calls, with whatever
    workers and requests, like the single line. -/
theorem C87_calls (env : Env) (cs : List Spec.Call) :
    Spec.answers env 0 (QueueManager.empty : Multi) cs =
      Spec.answers env 0 (QueueManager.empty : Rota) cs :=
  answers_sim (Rota.sim (env' := env) rfl) cs (Rota.sim (env := env) (env' := env) rfl).empty

/-! ## Concrete case -/

/-- Two workers and five jobs; one of the workers is done with its first job, then the other dies. -/
def fiveJobs : List Msg :=
  [fromW "a" ["init", "g"], fromW "a" ["ping"], fromW "b" ["init", "g"]] ++
  ["j1", "j2", "j3", "j4", "j5"].map (fun j => fromC "c" ["eval", j, "hwgroup=g", ""]) ++
  [fromW "b" ["done", "j1", "OK"]] ++
  (List.replicate 4 [fromW "b" ["ping"], tick "1001"]).flatten

/-- `C87_rota`: `j3` and `j5` are promised to the worker `b`, `j2` and `j4` to `a`; when `a` is gone,
    `b` gets its jobs after its own. -/
example : observed Multi cfg0 env0 fiveJobs = observed Rota cfg0 env0 fiveJobs ∧
    jobsGiven (observed Multi cfg0 env0 fiveJobs) =
      [["pong"], ["eval", "j1"], ["eval", "j2"], ["eval", "j3"], ["pong"], ["pong"], ["pong"], ["pong"]] ∧
    jobsGiven (observed Multi cfg0 env0 (fiveJobs ++ ["j3", "j5", "j2"].map fun j =>
      fromW "b" ["done", j, "OK"])) = [["pong"], ["eval", "j1"], ["eval", "j2"],
        ["eval", "j3"], ["pong"], ["pong"], ["pong"], ["pong"], ["eval", "j5"], ["eval", "j2"], ["eval", "j4"]] :=
  ⟨C87_rota _ _ _, by decide +kernel, by decide +kernel⟩

end Broker
