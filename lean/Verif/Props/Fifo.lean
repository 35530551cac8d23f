import Verif.Proof.QueueSim
import Verif.Spec.Fifo
import Verif.Spec.Exec
import Verif.Props.OneWorker
import Mathlib.Tactic.Linarith

/-!
# C85: the wall clock and the single-queue manager

The single-queue manager keeps the wall-clock time at which each request came and sorts by it with an
algorithm that is not stable.  As long as the times tell the order of arrival, none of this can be
seen.
-/

namespace Broker

namespace Fifo

/-- Times in this relation are in order for the sorting algorithm. -/
structure Order (env : Env) (P : Int → Int → Prop) : Prop where
  clock : ∀ m n, m < n → P (env.clock m) (env.clock n)
  keep : ∀ l : List Entry, l.Pairwise (fun a b => P a.2 b.2) → env.srt.sort l = l

/-- What the queues have in common when the clock was read `n` times. -/
structure Like (P : Int → Int → Prop) (env : Env) (n : Nat) (q : Single) (f : Fifo) : Prop where
  waiting : f.waiting = q.jobs.map (·.1)
  current : f.current = q.current
  workers : f.workers = q.workers
  order : q.jobs.Pairwise fun a b => P a.2 b.2
  past : ∀ e ∈ q.jobs, ∀ m, n ≤ m → P e.2 (env.clock m)

theorem assignable_eq (r : Req) (ws : List Worker) : assignable r ws = Single.isAssignable r ws := by
  induction ws with
  | nil => rfl
  | cons w ws ih => unfold assignable Single.isAssignable; rw [ih]

theorem idle_eq (r : Req) (m : WMap (Option Req)) : idle r m = Single.select r m := by
  induction m with
  | nil => rfl
  | cons p t ih =>
    obtain ⟨w, c⟩ := p
    cases c with
    | none => unfold idle Single.select; simp only [ih]
    | some _ => unfold idle Single.select; exact ih

theorem oldest_eq (w : Worker) (l : List Entry) :
    oldest w (l.map (·.1)) = (Single.takeFirst w l).map fun x => (x.1, x.2.map (·.1)) := by
  induction l with
  | nil => rfl
  | cons e t ih =>
    simp only [List.map_cons, oldest, Single.takeFirst, ih]
    cases w.checkHeaders e.1.headers with
    | error x => rfl
    | ok b =>
      cases b with
      | true => rfl
      | false => cases Single.takeFirst w t <;> rfl

theorem orphans_eq (ws : List Worker) (l : List Entry) :
    orphans ws (l.map (·.1)) = (Single.splitJobs ws l).map fun x => (x.1, x.2.map (·.1)) := by
  induction l with
  | nil => rfl
  | cons e t ih =>
    simp only [List.map_cons, orphans, Single.splitJobs, ih, assignable_eq]
    cases Single.isAssignable e.1 ws with
    | error x => rfl
    | ok b =>
      cases Single.splitJobs ws t with
      | error x => rfl
      | ok x => cases b <;> rfl

theorem strict_inj {l : List Entry} (h : l.Pairwise fun a b => a.2 < b.2) {a b : Entry} (ha : a ∈ l)
    (hb : b ∈ l) (he : a.2 = b.2) : a = b := by
  induction l with
  | nil => cases ha
  | cons x t ih =>
    obtain ⟨h1, h2⟩ := List.pairwise_cons.1 h
    rcases List.mem_cons.1 ha with rfl | ha' <;> rcases List.mem_cons.1 hb with rfl | hb'
    · rfl
    · have := h1 _ hb'; omega
    · have := h1 _ ha'; omega
    · exact ih h2 ha' hb'

/-- Entries with different times in order stay where they are. -/
theorem sort_strict (srt : Sorter) {l : List Entry} (h : l.Pairwise fun a b => a.2 < b.2) :
    srt.sort l = l := by
  refine List.Perm.eq_of_pairwise (le := fun a b : Entry => a.2 ≤ b.2) ?_ (srt.sorted l)
    (h.imp fun h => Int.le_of_lt h) (srt.perm l)
  intro a b ha hb hab hba
  exact strict_inj h ((srt.perm l).mem_iff.1 ha) hb (by omega)

theorem takeFirst_sub {w : Worker} {l : List Entry} {x : Option Req × List Entry}
    (h : Single.takeFirst w l = .ok x) : x.2.Sublist l := by
  induction l generalizing x with
  | nil => cases h; exact List.Sublist.refl _
  | cons e t ih =>
    unfold Single.takeFirst at h
    cases hc : w.checkHeaders e.1.headers with
    | error y => rw [hc] at h; cases h
    | ok b =>
      rw [hc] at h
      cases b with
      | true => cases h; exact List.sublist_cons_self _ _
      | false =>
        cases ht : Single.takeFirst w t with
        | error y => simp only [ht] at h; cases h
        | ok y =>
          simp only [ht] at h
          cases h
          exact (ih ht).cons_cons _

theorem splitJobs_sub {ws : List Worker} {l : List Entry} {x : List Req × List Entry}
    (h : Single.splitJobs ws l = .ok x) : x.2.Sublist l := by
  induction l generalizing x with
  | nil => cases h; exact List.Sublist.refl _
  | cons e t ih =>
    unfold Single.splitJobs at h
    cases hc : Single.isAssignable e.1 ws with
    | error y => rw [hc] at h; cases h
    | ok b =>
      cases ht : Single.splitJobs ws t with
      | error y => rw [hc, ht] at h; cases h
      | ok y =>
        rw [hc, ht] at h
        cases b with
        | true => cases h; exact (ih ht).cons_cons _
        | false => cases h; exact (ih ht).cons _

theorem takeFirst_none {w : Worker} {l : List Entry} {rest : List Entry}
    (h : Single.takeFirst w l = .ok (none, rest)) : rest = l := by
  induction l generalizing rest with
  | nil => cases h; rfl
  | cons e t ih =>
    unfold Single.takeFirst at h
    cases hc : w.checkHeaders e.1.headers with
    | error y => rw [hc] at h; cases h
    | ok b =>
      rw [hc] at h
      cases b with
      | true => cases h
      | false =>
        cases ht : Single.takeFirst w t with
        | error y => simp only [ht] at h; cases h
        | ok y =>
          obtain ⟨r, rest'⟩ := y
          simp only [ht] at h
          cases h
          rw [ih ht]

variable {P : Int → Int → Prop} {env : Env} {n : Nat} {q : Single} {f : Fifo}

theorem Like.next (h : Like P env n q f) (hp : Order env P) (w : Worker) :
    SameRes (fun a b => b.1 = a.1 ∧ Like P env n a.2 b.2) (q.assignRequest env.srt w) (f.next w) := by
  unfold Single.assignRequest Fifo.next
  rw [h.waiting, oldest_eq, hp.keep _ h.order]
  cases ht : Single.takeFirst w q.jobs with
  | error e => simp only [ht]; exact .error e
  | ok x =>
    obtain ⟨r, rest⟩ := x
    have hsub : rest.Sublist q.jobs := takeFirst_sub ht
    simp only [ht]
    cases r with
    | some r =>
      refine SameRes.ok ⟨rfl, ⟨rfl, ?_, h.workers, h.order.sublist hsub,
        fun e he => h.past e (hsub.subset he)⟩⟩
      show f.current.put _ _ = _
      rw [h.current]
    | none =>
      refine SameRes.ok ⟨rfl, ⟨?_, ?_, h.workers, h.order, h.past⟩⟩
      · show rest.map _ = _
        rw [takeFirst_none ht]
      · show f.current.put _ _ = _
        rw [h.current]

theorem Like.add (h : Like P env n q f) (hp : Order env P) (w : Worker) (c : Option Req) :
    SameRes (fun a b => b.1 = a.1 ∧ Like P env n a.2 b.2) (q.addWorker env.srt w c) (f.add w c) := by
  have h' : Like P env n { q with current := q.current.put w c, workers := q.workers ++ [w] }
      { f with current := f.current.put w c, workers := f.workers ++ [w] } :=
    ⟨h.waiting, by show f.current.put _ _ = _; rw [h.current],
      by show f.workers ++ _ = _; rw [h.workers], h.order, h.past⟩
  unfold Single.addWorker Fifo.add
  cases c with
  | some r => exact .ok ⟨rfl, h'⟩
  | none => exact h'.next hp w

theorem Like.remove (h : Like P env n q f) (w : Worker) :
    SameRes (fun a b => b.1 = a.1 ∧ Like P env n a.2 b.2) (q.workerTerminated w) (f.remove w) := by
  unfold Single.workerTerminated Fifo.remove
  rw [h.waiting, h.workers, h.current]
  dsimp only
  rw [orphans_eq]
  cases ht : Single.splitJobs (q.workers.filter (fun x => x.addr ≠ w.addr)) q.jobs with
  | error e => exact .error e
  | ok x =>
    have hsub := splitJobs_sub ht
    exact SameRes.ok ⟨rfl, ⟨rfl, rfl, rfl, h.order.sublist hsub,
      fun e he => h.past e (hsub.subset he)⟩⟩

theorem Like.submit (h : Like P env n q f) (hp : Order env P) (r : Req) :
    SameRes (fun a b => b.1 = a.1 ∧ Like P env (n + 1) a.2 b.2) (q.enqueueRequest (env.clock n) r)
      (f.submit r) := by
  unfold Single.enqueueRequest Fifo.submit
  rw [h.current, h.workers, idle_eq, assignable_eq]
  cases Single.select r q.current with
  | error e => exact .error e
  | ok o =>
    cases o with
    | some w =>
      exact SameRes.ok ⟨rfl, ⟨h.waiting, rfl, rfl, h.order,
        fun e he m hm => h.past e he m (by omega)⟩⟩
    | none =>
      simp only [Except.bind_ok]
      cases Single.isAssignable r q.workers with
      | error e => exact .error e
      | ok b =>
        cases b with
        | false =>
          exact SameRes.ok ⟨rfl, ⟨h.waiting, h.current, h.workers, h.order,
            fun e he m hm => h.past e he m (by omega)⟩⟩
        | true =>
          refine SameRes.ok ⟨rfl, ⟨?_, rfl, rfl, ?_, ?_⟩⟩
          · show f.waiting ++ [r] = (q.jobs ++ [(r, env.clock n)]).map _
            rw [h.waiting, List.map_append]; rfl
          · refine List.pairwise_append.2 ⟨h.order, List.pairwise_singleton _ _, ?_⟩
            intro a ha b hb
            rw [List.mem_singleton.1 hb]
            exact h.past a ha n (Nat.le_refl _)
          · intro e he m hm
            rcases List.mem_append.1 he with he | he
            · exact h.past e he m (by omega)
            · rw [List.mem_singleton.1 he]
              exact hp.clock _ _ (by omega)

/-- The two queue managers give the same answers. -/
theorem sim {P : Int → Int → Prop} {env env' : Env} (hp : Order env P) (ha : env'.alloc = env.alloc) :
    QSim env env' (Like P env) where
  alloc := ha
  empty := ⟨rfl, rfl, rfl, List.Pairwise.nil, fun _ h => absurd h List.not_mem_nil⟩
  addWorker w c h := h.add hp w c
  assign w h := h.next hp w
  finished w h := h.next hp w
  terminated w h := h.remove w
  enqueue r h := h.submit hp r
  queued h := by
    show List.length _ = List.length _
    rw [h.waiting, List.length_map]
  current w h := by
    refine ⟨?_, h.waiting, ?_, h.workers, h.order, h.past⟩
    · show WMap.getD _ _ _ = WMap.getD _ _ _
      rw [h.current]
    · show WMap.emplace _ _ _ = WMap.emplace _ _ _
      rw [h.current]
  cancelled w h := by
    refine ⟨?_, h.waiting, ?_, h.workers, h.order, h.past⟩
    · show WMap.getD _ _ _ = WMap.getD _ _ _
      rw [h.current]
    · show WMap.put _ _ _ = WMap.put _ _ _
      rw [h.current]

end Fifo

theorem Spec.InOrder.order {env : Env} (h : Spec.InOrder env) :
    ∃ P : Int → Int → Prop, Fifo.Order env P ∧ ∀ a b, P a b → a ≤ b := by
  rcases h with h | ⟨h, hs⟩
  · exact ⟨_, ⟨h, fun l hl => Fifo.sort_strict env.srt hl⟩, fun _ _ => Int.le_of_lt⟩
  · exact ⟨_, ⟨h, hs⟩, fun _ _ h => h⟩

/-- **C85.** As long as arrival times tell the order of arrival, the broker with the single-queue
    manager cannot be told apart from one that keeps a plain list of requests in order of arrival:
    whatever messages come, it sends the same messages and fails in the same way. -/
theorem C85_fifo (cfg : HConfig) (env : Env) (ms : List Msg) (ho : Spec.InOrder env) :
    observed Single cfg env ms = observed Fifo cfg env ms := by
  obtain ⟨P, hp, -⟩ := ho.order
  exact (observed_sim (Fifo.sim (env' := env) hp rfl) cfg ms).symm

/-- **C85.** The same for the queue manager alone: it answers all sequences of calls like the plain
    list, which does not look at the clock. -/
theorem C85_calls (env env' : Env) (cs : List Spec.Call) (ho : Spec.InOrder env)
    (ha : env'.alloc = env.alloc) : Spec.answers env 0 (QueueManager.empty : Single) cs =
      Spec.answers env' 0 (QueueManager.empty : Fifo) cs := by
  obtain ⟨P, hp, -⟩ := ho.order
  have S := Fifo.sim (env' := env') hp ha
  exact answers_sim S cs S.empty

/-- **C85.** So neither the readings themselves nor the sorting algorithm can be seen. -/
theorem C85_clock (cfg : HConfig) (env env' : Env) (ms : List Msg) (ho : Spec.InOrder env)
    (ho' : Spec.InOrder env') (ha : env'.alloc = env.alloc) :
    observed Single cfg env ms = observed Single cfg env' ms := by
  obtain ⟨P, hp, -⟩ := ho.order
  rw [C85_fifo cfg env' ms ho', ← observed_sim (Fifo.sim (env' := env') hp ha) cfg ms]

/-! ## Concrete cases -/

/-- A worker, three jobs, and the first one is done. -/
def threeJobs : List Msg :=
  [fromW "a" ["init", "g"], fromC "c" ["eval", "j1", "hwgroup=g", ""],
   fromC "c" ["eval", "j2", "hwgroup=g", ""], fromC "c" ["eval", "j3", "hwgroup=g", ""],
   fromW "a" ["done", "j1", "OK"]]

/-- The jobs that workers are given, in order. -/
def jobsGiven (l : List (List Msg × Option Err)) : List (List String) :=
  ((l.flatMap Prod.fst).filter fun m => m.key == keyWorkers).map (·.data)

/-- The clock jumps ahead by more and more, and `std::sort` reverses entries with equal times. -/
def envJumps : Env where
  alloc := env0.alloc
  alloc_fresh := env0.alloc_fresh
  clock n := 1000 * n * n + n
  srt := ⟨fun l => insSort l.reverse, fun l => (insSort_perm _).trans (List.reverse_perm l),
    fun _ => insSort_sorted _⟩

theorem inOrder_jumps : Spec.InOrder envJumps := .inl fun m n h => by
  show (1000 * (m : Int) * m + m) < 1000 * n * n + n
  have : (m : Int) < n := by omega
  nlinarith

/-- `C85_fifo`, `C85_clock`: two jobs wait and the first of them is given to the worker; also with a
    clock that stands still and insertion sort. -/
example : observed Single cfg0 env0 threeJobs = observed Fifo cfg0 env0 threeJobs ∧
    observed Single cfg0 env0 threeJobs = observed Single cfg0 envJumps threeJobs ∧
    observed Single cfg0 env0 threeJobs = observed Single cfg0 envStill threeJobs ∧
    jobsGiven (observed Single cfg0 env0 threeJobs) = [["eval", "j1"], ["eval", "j2"]] :=
  ⟨C85_fifo _ _ _ inOrder_env0, C85_clock _ _ _ _ inOrder_env0 inOrder_jumps rfl,
    C85_clock _ _ _ _ inOrder_env0 inOrder_still rfl, by decide +kernel⟩

/-- All readings are the same, and `std::sort` reverses entries with equal times. -/
def envTies : Env := { envJumps with clock := fun _ => 0 }

/-- The claim for clocks that only do not go back: two requests may come in the same millisecond. -/
def C85_stillClaim : Prop :=
  ∀ (cfg : HConfig) (env : Env) (ms : List Msg), (∀ m n, m < n → env.clock m ≤ env.clock n) →
    observed Single cfg env ms = observed Fifo cfg env ms

/-- **C85** is false of requests that come in the same millisecond: `std::sort` is not stable and may
    put the later one first. -/
theorem C85_still_false : ¬ C85_stillClaim := by
  intro h
  have h1 := congrArg jobsGiven (h cfg0 envTies threeJobs fun _ _ _ => Int.le_refl _)
  revert h1
  decide +kernel

/-- The claim for all clocks. -/
def C85_backClaim : Prop :=
  ∀ (cfg : HConfig) (env : Env) (ms : List Msg), env.srt = insSorter →
    observed Single cfg env ms = observed Fifo cfg env ms

/-- **C85** is false of clocks that are set back, even with a stable sorting algorithm: the job that
    came later is given to the worker first. -/
theorem C85_back_false : ¬ C85_backClaim := by
  intro h
  have h1 := congrArg jobsGiven (h cfg0 envBack threeJobs rfl)
  revert h1
  decide +kernel

end Broker
