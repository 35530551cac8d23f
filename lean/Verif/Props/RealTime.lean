import Verif.Proof.Time

/-!
# Heartbeats in real time (C61)
-/

set_option linter.unusedSectionVars false

namespace Broker

variable {Q : Type} [QueueManager Q] [LawfulQM Q]

/-- **C61, no premature removal.**  On a clock that does not run backwards, a registered worker whose
    message is handled stays registered for `max_liveness` times the ping interval, counted in real time
    from the moment the broker started waiting for that message. -/
theorem C61_no_premature_removal {cfg : HConfig} {env : Env} {e : SysEnv} {evs1 evs2 : List SysEv}
    {s1 s : Sys Q} (hr1 : SRun cfg env e evs1 s1) (hr : SRun cfg env e (evs1 ++ .main :: evs2) s)
    (hlive : 1 ≤ cfg.maxLiveness) (ht : s1.todo = []) {ks : List String} {el : Int}
    (hpc : s1.pc = .serve ("workers" :: ks) el) {i : String} {d : List String}
    {rest : List (String × List String)} (hin : s1.inbox "workers" = (i, d) :: rest) {w : Worker}
    (hw : s1.h.workers.find? (fun w => w.identity == i) = some w)
    (hm : Spec.Monotone s.polls) (hb : ∀ p ∈ s.polls, 0 ≤ p.1 ∧ p.2 < 2 ^ 63) {f z : Int × Int}
    (hf : s1.polls.getLast? = some f) (hz : s.polls.getLast? = some z)
    (hle : z.2 - f.1 ≤ cfg.maxLiveness * cfg.pingInterval * 1000000) : w ∈ s.h.workers := by
  rcases hr1.since hr ht hpc hin with ⟨-, h⟩ | ⟨h1, t, h2, a1, a2, a3, -, -, n, ps, a4, a5, a6, a7, a8⟩
  · rw [h]; exact List.mem_of_find?_eq_some hw
  · have hsub : ((s.polls.take n).drop (s1.polls.length - 1)).Sublist s.polls :=
      (List.drop_sublist _ _).trans (List.take_sublist _ _)
    generalize hq : (s.polls.take n).drop (s1.polls.length - 1) = qs at a8 hsub
    have hmq := hm.sublist hsub
    obtain ⟨c1, c2⟩ := sum_elapsed qs hmq
    have hzs : ∀ x ∈ qs.map (fun p => elapsedMs p.1 p.2), 0 ≤ x ∧ -2 ^ 63 ≤ x ∧ x < 2 ^ 63 := by
      intro x hx
      obtain ⟨p, hp, rfl⟩ := List.mem_map.1 hx
      have := elapsedMs_bounds (hmq.1 p hp)
      have := hb p (hsub.subset hp)
      omega
    have a8' : msgsFor keyTimer (h2.map (·.msg)) =
        (qs.map (fun p => elapsedMs p.1 p.2)).map timerMsg := by
      rw [a8, List.map_map]; rfl
    refine C13_no_premature_expiry a1 hlive (by rw [a3]) (by rw [a2, a3]; exact hw) ?_
      ((elapsed_sum a8' (fun x hx => (hzs x hx).2) _).2 rfl) ?_
    · intro t' ht' x hx
      exact (hzs x (tick_value a8' (fun x hx => (hzs x hx).2) (List.mem_map_of_mem ht') hx)).1
    · have hpos : 0 ≤ z.2 - f.1 := by
        have := last_le hm hz (p := f) (by rw [a4]; exact List.mem_append_left _ (List.mem_of_getLast? hf))
        have := hm.1 f (by rw [a4]; exact List.mem_append_left _ (List.mem_of_getLast? hf))
        omega
      cases hql : qs.getLast? with
      | none =>
        rw [List.getLast?_eq_none_iff.1 hql]
        simp only [List.map_nil, List.sum_nil]
        omega
      | some z' =>
        have hn : s1.polls.length - 1 < n := by
          apply Decidable.byContradiction
          intro h
          rw [List.drop_eq_nil_of_le (by rw [List.length_take]; omega)] at hq
          subst hq
          cases hql
        have hhead : qs.head? = some f := by
          rw [← hq, a4]
          exact take_drop_last hf hn
        obtain ⟨-, -, c3⟩ := c2 f z' hhead hql
        have := last_le hm hz (hsub.subset (List.mem_of_getLast? hql))
        omega

/-- **C61, a busy broker removes nobody.**  As long as every wait for messages takes less than a
    millisecond, a worker heard once stays registered, however much real time passes. -/
theorem C61_busy_removes_nobody {cfg : HConfig} {env : Env} {e : SysEnv} {evs1 evs2 : List SysEv}
    {s1 s : Sys Q} (hr1 : SRun cfg env e evs1 s1) (hr : SRun cfg env e (evs1 ++ .main :: evs2) s)
    (hlive : 1 ≤ cfg.maxLiveness) (hping : 0 ≤ cfg.pingInterval) (ht : s1.todo = []) {ks : List String}
    {el : Int} (hpc : s1.pc = .serve ("workers" :: ks) el) {i : String} {d : List String}
    {rest : List (String × List String)} (hin : s1.inbox "workers" = (i, d) :: rest) {w : Worker}
    (hw : s1.h.workers.find? (fun w => w.identity == i) = some w)
    (hshort : ∀ p ∈ s.polls.drop (s1.polls.length - 1), p.1 ≤ p.2 ∧ p.2 - p.1 < 1000000) :
    w ∈ s.h.workers := by
  rcases hr1.since hr ht hpc hin with ⟨-, h⟩ | ⟨h1, t, h2, a1, a2, a3, -, -, n, ps, a4, a5, a6, a7, a8⟩
  · rw [h]; exact List.mem_of_find?_eq_some hw
  · have hsub : ((s.polls.take n).drop (s1.polls.length - 1)).Sublist (s.polls.drop (s1.polls.length - 1)) :=
      (List.take_sublist n s.polls).drop _
    generalize (s.polls.take n).drop (s1.polls.length - 1) = qs at a8 hsub
    have hzs : ∀ x ∈ qs.map (fun p => elapsedMs p.1 p.2), x = 0 := by
      intro x hx
      obtain ⟨p, hp, rfl⟩ := List.mem_map.1 hx
      have h := hshort p (hsub.subset hp)
      have := elapsedMs_bounds h.1
      omega
    have hzs' : ∀ x ∈ qs.map (fun p => elapsedMs p.1 p.2), -2 ^ 63 ≤ x ∧ x < 2 ^ 63 := by
      intro x hx
      rw [hzs x hx]; decide
    have a8' : msgsFor keyTimer (h2.map (·.msg)) =
        (qs.map (fun p => elapsedMs p.1 p.2)).map timerMsg := by
      rw [a8, List.map_map]; rfl
    refine C13_no_premature_expiry a1 hlive (by rw [a3]) (by rw [a2, a3]; exact hw) ?_
      ((elapsed_sum a8' hzs' _).2 rfl) ?_
    · intro t' ht' x hx
      rw [hzs x (tick_value a8' hzs' (List.mem_map_of_mem ht') hx)]
    · have : (qs.map (fun p => elapsedMs p.1 p.2)).sum = 0 := by
        generalize qs.map (fun p => elapsedMs p.1 p.2) = l at hzs
        clear * - hzs
        induction l with
        | nil => rfl
        | cons x l ih =>
          rw [List.sum_cons, ih (fun y hy => hzs y (by simp [hy])), hzs x (by simp)]; rfl
      rw [this]
      exact Int.mul_nonneg (by omega) hping

/-- **C61, silent workers are removed (partial).**  A worker that stays silent after a message of its is
    handled has been removed once the time spent waiting for messages, less one millisecond per wait,
    exceeds `max_liveness` times the ping interval plus the longest wait.  Missing: a bound in real
    time; there is none, see `C61_busy_removes_nobody`. -/
theorem C61_silent_removed_partial {cfg : HConfig} {env : Env} {e : SysEnv} {evs1 evs2 : List SysEv}
    {s1 s : Sys Q} (hr1 : SRun cfg env e evs1 s1) (hr : SRun cfg env e (evs1 ++ .main :: evs2) s)
    (hlive : 1 ≤ cfg.maxLiveness) (hping : 0 ≤ cfg.pingInterval) (ht : s1.todo = []) {ks : List String}
    {el : Int} (hpc : s1.pc = .serve ("workers" :: ks) el) {i : String} {d : List String}
    {rest : List (String × List String)} (hin : s1.inbox "workers" = (i, d) :: rest) {w : Worker}
    (hw : s1.h.workers.find? (fun w => w.identity == i) = some w)
    (hrest : ∀ x ∈ rest, x.1 ≠ i) (hquiet : ∀ d, SysEv.arrive "workers" i d ∉ evs2)
    (hend : s.pc = .poll) (hb : ∀ p ∈ s.polls, 0 ≤ p.1 ∧ p.1 ≤ p.2 ∧ p.2 < 2 ^ 63) {D : Int} (hD0 : 0 ≤ D)
    (hD : ∀ p ∈ s.polls.drop (s1.polls.length - 1), p.2 - p.1 ≤ D * 1000000)
    (hlong : cfg.maxLiveness * (cfg.pingInterval + D) * 1000000 <
      Spec.waited (s.polls.drop (s1.polls.length - 1)) -
        (s.polls.drop (s1.polls.length - 1)).length * 1000000) : w ∉ s.h.workers := by
  rcases hr1.since hr ht hpc hin with ⟨⟨err, h⟩, -⟩ | ⟨h1, t, h2, a1, a2, a3, a9, a10, n, ps, a4, a5, a6, a7, a8⟩
  · rw [hend] at h; cases h
  · have hn := a6 hend
    rw [hn, List.take_length] at a8
    have hsub := List.drop_sublist (s1.polls.length - 1) s.polls
    generalize s.polls.drop (s1.polls.length - 1) = qs at a8 hD hlong hsub
    have hzs : ∀ x ∈ qs.map (fun p => elapsedMs p.1 p.2), x ≤ D ∧ -2 ^ 63 ≤ x ∧ x < 2 ^ 63 := by
      intro x hx
      obtain ⟨p, hp, rfl⟩ := List.mem_map.1 hx
      have h1 := hb p (hsub.subset hp)
      have := elapsedMs_bounds h1.2.1
      have := hD p hp
      omega
    have a8' : msgsFor keyTimer (h2.map (·.msg)) =
        (qs.map (fun p => elapsedMs p.1 p.2)).map timerMsg := by
      rw [a8, List.map_map]; rfl
    have hwi := List.find?_some hw
    have hwi : w.identity = i := by simpa using hwi
    refine C14_silent_expires_partial a1 hlive hping (by rw [a3]) (by rw [a2, a3]; exact hw) ?_ hD0 ?_
      ((elapsed_sum a8' (fun x hx => (hzs x hx).2) _).2 rfl) ?_
    · have k1 := (calls_count hr1 i).2 (by rw [hpc]; simp)
      have k2 := (calls_count hr i).1
      have k3 := hr1.quiet hr (i := i) (by
        intro d h
        rcases List.mem_cons.1 h with h | h
        · cases h
        · exact hquiet d h)
      have hrest0 : rest.countP (fun x => x.1 == i) = 0 := by
        rw [List.countP_eq_zero]
        intro x hx
        simpa using hrest x hx
      have hin' : s1.inbox keyWorkers = (i, d) :: rest := hin
      rw [hin', List.countP_cons] at k1
      rw [← a10, List.map_append, List.countP_append, a9, List.map_cons, List.countP_cons, a3] at k2
      have hself : ((⟨"workers", i, d⟩ : Msg).key == keyWorkers && (⟨"workers", i, d⟩ : Msg).identity == i)
          = true := by
        simp; rfl
      rw [if_pos hself] at k2
      simp only [beq_self_eq_true, if_true] at k1
      have k4 : (h2.map (·.msg)).countP (fun m => m.key == keyWorkers && m.identity == i) = 0 := by omega
      rw [List.countP_eq_zero] at k4
      intro t' ht' ⟨u1, u2⟩
      refine k4 _ (List.mem_map_of_mem ht') ?_
      rw [u2, hwi]
      simp
      exact u1
    · intro t' ht' x hx
      exact (hzs x (tick_value a8' (fun x hx => (hzs x hx).2) (List.mem_map_of_mem ht') hx)).1
    · have := waited_le qs (fun p hp => (hb p (hsub.subset hp)).2.1)
      omega

/-- A worker registers and pings; the broker has read its `ping` but not yet handled it. -/
def pingedEvs : List SysEv :=
  [.connect, .arrive "workers" "w1" ["init", "group", "env=c"], .poll 0 100000000, .main, .main,
   .arrive "workers" "w1" ["ping"], .poll 100000000 200000000]

/-- The `ping` is handled; then the worker is silent during this many waits of a second. -/
def silentEvs : Nat → List SysEv
  | 0 => [.main, .main]
  | n + 1 => silentEvs n ++ [.poll (200000000 + n * 1000000000) (200000000 + (n + 1) * 1000000000), .main]

/-- The hypotheses of `C61_no_premature_removal` and its conclusion, three seconds later. -/
example : (∃ s1 : Sys Multi, SRun cfg0 env0 senv0 pingedEvs s1 ∧
      (decide (s1.todo = []) && decide (s1.inbox "workers" = [("w1", ["ping"])]) &&
        (s1.h.workers.find? (fun w => w.identity == "w1")).isSome &&
        decide (s1.polls.getLast? = some (100000000, 200000000)) &&
        (match s1.pc with | .serve ("workers" :: _) _ => true | _ => false)) = true) ∧
    ∃ s : Sys Multi, SRun cfg0 env0 senv0 (pingedEvs ++ .main :: silentEvs 3) s ∧
      (decide (s.polls.getLast? = some (2200000000, 3200000000)) && s.h.workers.any (·.identity == "w1") &&
        (match s.pc with | .poll => true | _ => false)) = true :=
  ⟨exists_srun _ _ (by decide +kernel), exists_srun _ _ (by decide +kernel)⟩

/-- The hypotheses of `C61_silent_removed_partial` and its conclusion, ten seconds later. -/
example : ∃ s : Sys Multi, SRun cfg0 env0 senv0 (pingedEvs ++ .main :: silentEvs 10) s ∧
      ((match s.pc with | .poll => true | _ => false) && s.h.workers.isEmpty &&
      decide (cfg0.maxLiveness * (cfg0.pingInterval + 1000) * 1000000 <
      Spec.waited (s.polls.drop 1) - (s.polls.drop 1).length * 1000000)) = true :=
  exists_srun _ _ (by decide +kernel)

/-- **C61 counted from the handling of the message is false**: the wait in which the message came is
    held against the worker.  With one life and a short ping interval it is removed right after its
    `ping` was answered. -/
theorem C61_refuted_from_handling : ¬ ∀ (cfg : HConfig) (evs1 evs2 : List SysEv) (s1 s : Sys Multi),
    SRun cfg env0 senv0 evs1 s1 → SRun cfg env0 senv0 (evs1 ++ .main :: evs2) s → 1 ≤ cfg.maxLiveness →
    s1.todo = [] → ∀ (i : String) (d : List String) (ks : List String) (el : Int),
    s1.pc = .serve ("workers" :: ks) el → s1.inbox "workers" = [(i, d)] → ∀ f z,
    s1.polls.getLast? = some f → s.polls.getLast? = some z →
    z.2 - f.2 ≤ cfg.maxLiveness * cfg.pingInterval * 1000000 →
    s1.h.workers.any (fun w => w.identity == i) → s.h.workers.any (fun w => w.identity == i) := by
  intro H
  let cfg : HConfig := ⟨1, by decide, 3, by decide, 50⟩
  obtain ⟨s1, hr1, hp1⟩ := exists_srun (Q := Multi) (cfg := cfg) (env := env0) (e := senv0) pingedEvs
    (fun s1 => decide (s1.todo = []) && decide (s1.inbox "workers" = [("w1", ["ping"])]) &&
        s1.h.workers.any (fun w => w.identity == "w1") &&
        decide (s1.polls.getLast? = some (100000000, 200000000)) &&
        (match s1.pc with | .serve ("workers" :: _) _ => true | _ => false)) (by decide +kernel)
  obtain ⟨s, hr, hp⟩ := exists_srun (Q := Multi) (cfg := cfg) (env := env0) (e := senv0)
    (pingedEvs ++ .main :: [.main, .main])
    (fun s => decide (s.polls.getLast? = some (100000000, 200000000)) &&
        !(s.h.workers.any (·.identity == "w1")) &&
        decide ((s.socks "workers").sent = [("w1", ["pong"])])) (by decide +kernel)
  simp only [Bool.and_eq_true, decide_eq_true_eq, Bool.not_eq_true'] at hp1 hp
  obtain ⟨⟨⟨⟨a1, a2⟩, a3⟩, a4⟩, a5⟩ := hp1
  obtain ⟨⟨b1, b2⟩, b3⟩ := hp
  split at a5
  · rename_i ks el hpc
    have := H cfg _ _ s1 s hr1 hr (by decide) a1 _ _ ks el hpc a2 _ _ a4 b1 (by decide) a3
    rw [b2] at this
    cases this
  · cases a5

/-- The `ping` is handled; then messages keep the broker busy, which waits four times for less than a
    millisecond in an hour. -/
def busyEvs : List SysEv :=
  [.main, .main,
   .arrive "clients" "c1" ["get-runtime-stats"], .poll 900000000000 900000900000, .main, .main, .main,
   .arrive "clients" "c1" ["get-runtime-stats"], .poll 1800000000000 1800000900000, .main, .main, .main,
   .arrive "clients" "c1" ["get-runtime-stats"], .poll 2700000000000 2700000900000, .main, .main, .main,
   .arrive "clients" "c1" ["get-runtime-stats"], .poll 3700000000000 3700000900000, .main, .main, .main]

/-- **C61 is false for the removal of silent workers in real time**: an hour after its last message the
    worker is still registered. -/
theorem C61_refuted_removal : ¬ ∀ (evs1 evs2 : List SysEv) (s1 s : Sys Multi),
    SRun cfg0 env0 senv0 evs1 s1 → SRun cfg0 env0 senv0 (evs1 ++ .main :: evs2) s →
    ∀ (i : String) (d : List String) (ks : List String) (el : Int), s1.todo = [] →
    s1.pc = .serve ("workers" :: ks) el → s1.inbox "workers" = [(i, d)] →
    (∀ d, SysEv.arrive "workers" i d ∉ evs2) → s.pc = .poll → ∀ f z,
    s1.polls.getLast? = some f → s.polls.getLast? = some z →
    cfg0.maxLiveness * cfg0.pingInterval * 1000000 * 900 ≤ z.2 - f.2 →
    ¬ s.h.workers.any (fun w => w.identity == i) := by
  intro H
  obtain ⟨s1, hr1, hp1⟩ := exists_srun (Q := Multi) (cfg := cfg0) (env := env0) (e := senv0) pingedEvs
    (fun s1 => decide (s1.todo = []) && decide (s1.inbox "workers" = [("w1", ["ping"])]) &&
        decide (s1.polls.getLast? = some (100000000, 200000000)) &&
        (match s1.pc with | .serve ("workers" :: _) _ => true | _ => false)) (by decide +kernel)
  obtain ⟨s, hr, hp⟩ := exists_srun (Q := Multi) (cfg := cfg0) (env := env0) (e := senv0)
    (pingedEvs ++ .main :: busyEvs)
    (fun s => decide (s.polls.getLast? = some (3700000000000, 3700000900000)) &&
        s.h.workers.any (·.identity == "w1") &&
        (match s.pc with | .poll => true | _ => false)) (by decide +kernel)
  simp only [Bool.and_eq_true, decide_eq_true_eq] at hp1 hp
  obtain ⟨⟨⟨a1, a2⟩, a4⟩, a5⟩ := hp1
  obtain ⟨⟨b1, b2⟩, b3⟩ := hp
  split at a5
  · rename_i ks el hpc
    split at b3
    · rename_i hpc'
      exact H _ _ s1 s hr1 hr _ _ ks el a1 hpc a2 (by intro d; simp [busyEvs]) hpc' _ _ a4 b1 (by decide) b2
    · cases b3
  · cases a5

end Broker
