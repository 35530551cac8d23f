import Verif.Proof.QueueSim
import Verif.Model.Single
import Verif.Model.Multi

/-!
# Simulation of single-queue managers with different clocks
-/

set_option linter.unusedSectionVars false

namespace Broker

namespace Stamps

/-- Waiting jobs with the readings of a clock.  The jobs come with the number of the reading. -/
def stamp (env : Env) (js : List (Req × Nat)) : List Entry := js.map fun j => (j.1, env.clock j.2)

/-- Sorting with either clock and algorithm orders the jobs in the same way. -/
def Agree (env env' : Env) : Prop := ∀ js : List (Req × Nat), (js.map (·.2)).Nodup →
  ∃ js', js'.Perm js ∧ env.srt.sort (stamp env js) = stamp env js' ∧
    env'.srt.sort (stamp env' js) = stamp env' js'

/-- The same jobs are in the same places. -/
structure Sync (env env' : Env) (n : Nat) (q q' : Single) : Prop where
  jobs : ∃ js : List (Req × Nat), (js.map (·.2)).Nodup ∧ (∀ j ∈ js, j.2 < n) ∧
    q.jobs = stamp env js ∧ q'.jobs = stamp env' js
  current : q'.current = q.current
  workers : q'.workers = q.workers

variable {env env' : Env}

theorem stamp_cons (env : Env) (j : Req × Nat) (js : List (Req × Nat)) :
    stamp env (j :: js) = (j.1, env.clock j.2) :: stamp env js := rfl

theorem takeFirst_stamp (w : Worker) (js : List (Req × Nat)) :
    SameRes (fun a b => b.1 = a.1 ∧ ∃ ks, ks.Sublist js ∧ a.2 = stamp env ks ∧ b.2 = stamp env' ks ∧
        (a.1 = none → ks = js))
      (Single.takeFirst w (stamp env js)) (Single.takeFirst w (stamp env' js)) := by
  induction js with
  | nil => exact .ok ⟨rfl, [], List.Sublist.refl _, rfl, rfl, fun _ => rfl⟩
  | cons j js ih =>
    rw [stamp_cons, stamp_cons]
    unfold Single.takeFirst
    dsimp only
    cases hc : w.checkHeaders j.1.headers with
    | error e => exact .error e
    | ok b =>
      cases b with
      | true => exact .ok ⟨rfl, js, List.sublist_cons_self _ _, rfl, rfl, fun h => by cases h⟩
      | false =>
        generalize Single.takeFirst w (stamp env js) = x at ih
        generalize Single.takeFirst w (stamp env' js) = y at ih
        cases ih with
        | error e => exact .error e
        | @ok a b h =>
          obtain ⟨h1, ks, h2, h3, h4, h5⟩ := h
          obtain ⟨a1, a2⟩ := a
          obtain ⟨b1, b2⟩ := b
          refine .ok ⟨h1, j :: ks, h2.cons_cons _, ?_, ?_, fun h => by rw [h5 h]⟩
          · show (_ :: a2) = _
            rw [stamp_cons]; exact congrArg _ h3
          · show (_ :: b2) = _
            rw [stamp_cons]; exact congrArg _ h4

theorem splitJobs_stamp (ws : List Worker) (js : List (Req × Nat)) :
    SameRes (fun a b => b.1 = a.1 ∧ ∃ ks, ks.Sublist js ∧ a.2 = stamp env ks ∧ b.2 = stamp env' ks)
      (Single.splitJobs ws (stamp env js)) (Single.splitJobs ws (stamp env' js)) := by
  induction js with
  | nil => exact .ok ⟨rfl, [], List.Sublist.refl _, rfl, rfl⟩
  | cons j js ih =>
    rw [stamp_cons, stamp_cons]
    unfold Single.splitJobs
    dsimp only
    cases hc : Single.isAssignable j.1 ws with
    | error e => exact .error e
    | ok b =>
      generalize Single.splitJobs ws (stamp env js) = x at ih
      generalize Single.splitJobs ws (stamp env' js) = y at ih
      cases ih with
      | error e => exact .error e
      | @ok x y h =>
        obtain ⟨h1, ks, h2, h3, h4⟩ := h
        obtain ⟨x1, x2⟩ := x
        obtain ⟨y1, y2⟩ := y
        cases h1; cases h3; cases h4
        cases b with
        | true => exact .ok ⟨rfl, j :: ks, h2.cons_cons _, rfl, rfl⟩
        | false => exact .ok ⟨rfl, ks, h2.cons _, rfl, rfl⟩

variable {n : Nat} {q q' : Single}

theorem Sync.next (ha : Agree env env') (h : Sync env env' n q q') (w : Worker) :
    SameRes (fun a b => b.1 = a.1 ∧ Sync env env' n a.2 b.2) (q.assignRequest env.srt w)
      (q'.assignRequest env'.srt w) := by
  obtain ⟨js, h1, h2, h3, h4⟩ := h.jobs
  obtain ⟨ks, g1, g2, g3⟩ := ha js h1
  unfold Single.assignRequest
  rw [h3, h4, g2, g3]
  have ht := takeFirst_stamp (env := env) (env' := env') w ks
  have n1 : (ks.map (·.2)).Nodup := (g1.map _).nodup_iff.2 h1
  have n2 : ∀ j ∈ ks, j.2 < n := fun j hj => h2 j (g1.mem_iff.1 hj)
  dsimp only
  generalize Single.takeFirst w (stamp env ks) = x at ht
  generalize Single.takeFirst w (stamp env' ks) = y at ht
  cases ht with
  | error e => exact .error e
  | @ok a b hh =>
    obtain ⟨k1, ls, k2, k3, k4, k5⟩ := hh
    obtain ⟨a1, a2⟩ := a
    obtain ⟨b1, b2⟩ := b
    cases k1; cases k3; cases k4
    cases a1 with
    | none =>
      refine .ok ⟨rfl, ⟨ks, n1, n2, rfl, rfl⟩, ?_, h.workers⟩
      show q'.current.put _ _ = q.current.put _ _
      rw [h.current]
    | some r =>
      refine .ok ⟨rfl, ⟨ls, n1.sublist (k2.map _), fun j hj => n2 j (k2.subset hj), rfl, rfl⟩, ?_,
        h.workers⟩
      show q'.current.put _ _ = q.current.put _ _
      rw [h.current]

theorem Sync.add (ha : Agree env env') (h : Sync env env' n q q') (w : Worker) (c : Option Req) :
    SameRes (fun a b => b.1 = a.1 ∧ Sync env env' n a.2 b.2) (q.addWorker env.srt w c)
      (q'.addWorker env'.srt w c) := by
  have h' : Sync env env' n { q with current := q.current.put w c, workers := q.workers ++ [w] }
      { q' with current := q'.current.put w c, workers := q'.workers ++ [w] } :=
    ⟨h.jobs, by show q'.current.put _ _ = q.current.put _ _; rw [h.current],
      by show q'.workers ++ _ = _; rw [h.workers]⟩
  unfold Single.addWorker
  cases c with
  | some r => exact .ok ⟨rfl, h'⟩
  | none => exact h'.next ha w

theorem Sync.remove (h : Sync env env' n q q') (w : Worker) :
    SameRes (fun a b => b.1 = a.1 ∧ Sync env env' n a.2 b.2) (q.workerTerminated w)
      (q'.workerTerminated w) := by
  obtain ⟨js, h1, h2, h3, h4⟩ := h.jobs
  unfold Single.workerTerminated
  rw [h.current, h.workers, h3, h4]
  dsimp only
  have ht := splitJobs_stamp (env := env) (env' := env')
    (q.workers.filter (fun x => x.addr ≠ w.addr)) js
  generalize Single.splitJobs _ (stamp env js) = x at ht
  generalize Single.splitJobs _ (stamp env' js) = y at ht
  cases ht with
  | error e => exact .error e
  | @ok a b hh =>
    obtain ⟨k1, ls, k2, k3, k4⟩ := hh
    obtain ⟨a1, a2⟩ := a
    obtain ⟨b1, b2⟩ := b
    cases k1; cases k3; cases k4
    exact .ok ⟨rfl, ⟨ls, h1.sublist (k2.map _), fun j hj => h2 j (k2.subset hj), rfl, rfl⟩, rfl, rfl⟩

theorem Sync.submit (h : Sync env env' n q q') (r : Req) :
    SameRes (fun a b => b.1 = a.1 ∧ Sync env env' (n + 1) a.2 b.2)
      (q.enqueueRequest (env.clock n) r) (q'.enqueueRequest (env'.clock n) r) := by
  obtain ⟨js, h1, h2, h3, h4⟩ := h.jobs
  have hold : ∃ js : List (Req × Nat), (js.map (·.2)).Nodup ∧ (∀ j ∈ js, j.2 < n + 1) ∧
      q.jobs = stamp env js ∧ q'.jobs = stamp env' js :=
    ⟨js, h1, fun j hj => Nat.lt_succ_of_lt (h2 j hj), h3, h4⟩
  unfold Single.enqueueRequest
  rw [h.current, h.workers]
  cases Single.select r q.current with
  | error e => exact .error e
  | ok o =>
    cases o with
    | some w =>
      exact .ok ⟨rfl, hold, rfl, rfl⟩
    | none =>
      cases hb : Single.isAssignable r q.workers with
      | error e => simp only [Bind.bind, Except.bind]; exact .error e
      | ok b =>
        simp only [Bind.bind, Except.bind]
        cases b with
        | true =>
          refine .ok ⟨rfl, ⟨js ++ [(r, n)], ?_, ?_, ?_, ?_⟩, rfl, rfl⟩
          · rw [List.map_append, List.nodup_append]
            refine ⟨h1, by simp, ?_⟩
            rintro a ha b hb rfl
            obtain ⟨j, hj, rfl⟩ := List.mem_map.1 ha
            have := h2 j hj
            simp at hb
            omega
          · intro j hj
            rcases List.mem_append.1 hj with hj | hj
            · exact Nat.lt_succ_of_lt (h2 j hj)
            · rw [List.mem_singleton.1 hj]; exact Nat.lt_succ_self n
          · show q.jobs ++ _ = _
            rw [h3]; simp [stamp]
          · show q'.jobs ++ _ = _
            rw [h4]; simp [stamp]
        | false => exact .ok ⟨rfl, hold, h.current, h.workers⟩

/-- The single-queue managers give the same answers. -/
theorem sync_sim (halloc : env'.alloc = env.alloc) (ha : Agree env env') :
    QSim env env' (Sync env env') where
  alloc := halloc
  empty := ⟨⟨[], List.nodup_nil, by simp, rfl, rfl⟩, rfl, rfl⟩
  addWorker := fun w c h => h.add ha w c
  assign := fun w h => h.next ha w
  finished := fun w h => h.next ha w
  terminated := fun w h => h.remove w
  enqueue := fun r h => h.submit r
  queued := by
    rintro n q q' h
    obtain ⟨js, -, -, h3, h4⟩ := h.jobs
    show q'.jobs.length = q.jobs.length
    rw [h3, h4]; simp [stamp]
  current := by
    rintro n q q' w h
    refine ⟨?_, h.jobs, ?_, h.workers⟩
    · show q'.current.getD w none = q.current.getD w none
      rw [h.current]
    · show q'.current.emplace w none = q.current.emplace w none
      rw [h.current]
  cancelled := by
    rintro n q q' w h
    refine ⟨?_, h.jobs, ?_, h.workers⟩
    · show q'.current.getD w none = q.current.getD w none
      rw [h.current]
    · show q'.current.put w none = q.current.put w none
      rw [h.current]

/-! ## When clocks agree -/

theorem nodup_inj {js : List (Req × Nat)} (h : (js.map (·.2)).Nodup) {a b : Req × Nat} (ha : a ∈ js)
    (hb : b ∈ js) (hab : a.2 = b.2) : a = b := by
  induction js with
  | nil => cases ha
  | cons j js ih =>
    obtain ⟨h1, h2⟩ := List.nodup_cons.1 h
    rcases List.mem_cons.1 ha with rfl | ha' <;> rcases List.mem_cons.1 hb with rfl | hb'
    · rfl
    · exact absurd (List.mem_map.2 ⟨b, hb', hab.symm⟩) h1
    · exact absurd (show b.2 ∈ js.map (·.2) from List.mem_map.2 ⟨a, ha', hab⟩) h1
    · exact ih h2 ha' hb'

theorem perm_map {α β : Type} {f : α → β} {l m : List β} (h : l.Perm m) :
    ∀ {js : List α}, m = js.map f → ∃ ks : List α, ks.Perm js ∧ ks.map f = l := by
  induction h with
  | nil =>
    intro js hm
    exact ⟨[], by rw [List.map_eq_nil_iff.1 hm.symm], rfl⟩
  | cons x _ ih =>
    intro js hm
    cases js with
    | nil => cases hm
    | cons j js =>
      rw [List.map_cons] at hm
      injection hm with h0 hm
      subst h0
      obtain ⟨ks, h1, h2⟩ := ih hm
      exact ⟨j :: ks, h1.cons _, by rw [List.map_cons, h2]⟩
  | swap x y t =>
    intro js hm
    match js, hm with
    | a :: b :: js, hm =>
      rw [List.map_cons, List.map_cons] at hm
      injection hm with h0 h3
      injection h3 with h1 h2
      subst h0 h1 h2
      exact ⟨b :: a :: js, List.Perm.swap .., rfl⟩
  | trans _ _ ih1 ih2 =>
    intro js hm
    obtain ⟨ks, h1, h2⟩ := ih2 hm
    obtain ⟨ls, h3, h4⟩ := ih1 h2.symm
    exact ⟨ls, h3.trans h1, h4⟩

/-- Different readings: there is only one order. -/
theorem agree_order (hinj : ∀ i j, env.clock i = env.clock j → i = j)
    (hiso : ∀ i j, env.clock i < env.clock j ↔ env'.clock i < env'.clock j) : Agree env env' := by
  intro js hn
  have hex : ∃ ks, ks.Perm js ∧ stamp env ks = env.srt.sort (stamp env js) := by
    have hp := env.srt.perm (stamp env js)
    obtain ⟨ks, h1, h2⟩ := perm_map hp rfl
    exact ⟨ks, h1, h2⟩
  obtain ⟨ks, h1, h2⟩ := hex
  refine ⟨ks, h1, h2.symm, ?_⟩
  have hs : ks.Pairwise fun a b => env.clock a.2 ≤ env.clock b.2 := by
    have := env.srt.sorted (stamp env js)
    rw [← h2] at this
    unfold stamp at this
    rw [List.pairwise_map] at this
    exact this
  have hle : ∀ i j, env.clock i ≤ env.clock j → env'.clock i ≤ env'.clock j := by
    intro i j h
    have := hiso j i
    omega
  have hs' : (stamp env' ks).Pairwise fun a b => a.2 ≤ b.2 := by
    unfold stamp
    rw [List.pairwise_map]
    exact hs.imp fun h => hle _ _ h
  refine List.Perm.eq_of_pairwise (le := fun a b : Entry => a.2 ≤ b.2) ?_ (env'.srt.sorted _) hs'
    ((env'.srt.perm _).trans (h1.symm.map _))
  intro a b ha hb hab hba
  have ha := (env'.srt.perm _).mem_iff.1 ha
  obtain ⟨x, hx, rfl⟩ := List.mem_map.1 ha
  obtain ⟨y, hy, rfl⟩ := List.mem_map.1 hb
  have hxy : x.2 = y.2 := by
    refine hinj _ _ ?_
    have h3 := (hiso x.2 y.2)
    have h4 := (hiso y.2 x.2)
    simp only at hab hba
    omega
  rw [nodup_inj hn hx (h1.mem_iff.1 hy) hxy]

/-- A clock that is converted, and a sorting algorithm that does not mind. -/
theorem agree_convert {f : Int → Int} (hclock : ∀ n, env'.clock n = f (env.clock n))
    (hsort : ∀ js, env'.srt.sort ((stamp env js).map fun e => (e.1, f e.2)) =
      (env.srt.sort (stamp env js)).map fun e => (e.1, f e.2)) : Agree env env' := by
  intro js _
  obtain ⟨ks, h1, h2⟩ := perm_map (env.srt.perm (stamp env js)) rfl
  have e : ∀ ls, stamp env' ls = (stamp env ls).map fun e => (e.1, f e.2) := by
    intro ls
    simp [stamp, hclock]
  exact ⟨ks, h1, h2.symm, by rw [e, hsort, ← h2, e]; rfl⟩

end Stamps

/-- The multi-queue manager does not use the clock. -/
theorem multi_sim {env env' : Env} (halloc : env'.alloc = env.alloc) :
    QSim (Q := Multi) (Q' := Multi) env env' (fun _ q q' => q' = q) := by
  have hs : ∀ (x : Except Exn (Option Req × Multi)),
      SameRes (fun a b => b.1 = a.1 ∧ b.2 = a.2) x x := by
    intro x; cases x with
    | ok a => exact .ok ⟨rfl, rfl⟩
    | error e => exact .error e
  refine ⟨halloc, rfl, ?_, ?_, ?_, ?_, ?_, ?_, ?_, ?_⟩
  · rintro n q q' w c rfl; exact hs _
  · rintro n q q' w rfl; exact hs _
  · rintro n q q' w rfl; exact hs _
  · rintro n q q' w rfl
    cases QueueManager.workerTerminated q' w with
    | ok a => exact .ok ⟨rfl, rfl⟩
    | error e => exact .error e
  · rintro n q q' r rfl
    have e : QueueManager.enqueueRequest q' (env'.clock n) r =
      QueueManager.enqueueRequest q' (env.clock n) r := rfl
    rw [e]
    cases QueueManager.enqueueRequest q' (env.clock n) r with
    | ok a => exact .ok ⟨rfl, rfl⟩
    | error e => exact .error e
  · rintro n q q' rfl; rfl
  · rintro n q q' w rfl; exact ⟨rfl, rfl⟩
  · rintro n q q' w rfl; exact ⟨rfl, rfl⟩

end Broker
