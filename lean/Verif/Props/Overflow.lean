import Verif.Proof.Overflow
import Verif.Props.RealTime

/-!
# No overflow of the timers of the workers (C65)
-/

set_option linter.unusedSectionVars false

namespace Broker

variable {Q : Type} [QueueManager Q] [LawfulQM Q]

/-- **C65, no overflow.**  On a clock that does not run backwards and gives nanoseconds in 64 bits, the sum
    of the timer of a worker and the length of the next wait fits into the 64 bits of
    `std::chrono::milliseconds`: the signed addition, whose overflow would be undefined, does not
    overflow. -/
theorem C65_no_overflow {cfg : HConfig} {env : Env} {e : SysEnv} {evs : List SysEv} {s : Sys Q}
    (hr : SRun cfg env e evs s) {b a : Int} (hm : Spec.Monotone (s.polls ++ [(b, a)]))
    (hb : ∀ p ∈ s.polls ++ [(b, a)], 0 ≤ p.1 ∧ p.2 < 2 ^ 63) (w : Worker) :
    0 ≤ s.h.timers.getD w 0 + elapsedMs b a ∧ s.h.timers.getD w 0 + elapsedMs b a < 2 ^ 63 := by
  obtain ⟨h, a1, a2, -⟩ := SRun.history .nil (evs2 := evs) (by simpa using hr) .nil rfl
  rw [List.nil_append] at a1 a2
  obtain ⟨n, -, hn, -⟩ := hr.call_ticks
  have hsub : (s.polls.take n ++ [(b, a)]).Sublist (s.polls ++ [(b, a)]) :=
    (List.take_sublist _ _).append (List.Sublist.refl _)
  generalize s.polls.take n = qs at hn hsub
  have hmq := hm.sublist hsub
  have hzs : ∀ x ∈ qs.map (fun p => elapsedMs p.1 p.2), 0 ≤ x ∧ -2 ^ 63 ≤ x ∧ x < 2 ^ 63 := by
    intro x hx
    obtain ⟨p, hp, rfl⟩ := List.mem_map.1 hx
    have := elapsedMs_bounds (hmq.1 p (by simp [hp]))
    have := hb p (hsub.subset (by simp [hp]))
    omega
  have hn' : msgsFor keyTimer (h.map (·.msg)) = (qs.map (fun p => elapsedMs p.1 p.2)).map timerMsg := by
    rw [a2, hn, List.map_map]; rfl
  obtain ⟨g1, g2⟩ := a1.timers (fun t ht x hx =>
    (hzs x (tick_value hn' (fun x hx => (hzs x hx).2) (List.mem_map_of_mem ht) hx)).1)
    ((elapsed_sum hn' (fun x hx => (hzs x hx).2) _).2 rfl)
  obtain ⟨h1, h2⟩ := WMap.All.getD g2 w (d := 0) ⟨Int.le_refl _, g1⟩
  obtain ⟨c1, c2⟩ := sum_elapsed _ hmq
  have he := elapsedMs_bounds (hmq.1 (b, a) (by simp))
  cases hqs : (qs ++ [(b, a)]).head? with
  | none => simp at hqs
  | some f =>
    obtain ⟨d1, d2, d3⟩ := c2 f (b, a) hqs (by simp)
    have hf := hb f (hsub.subset (List.mem_of_mem_head? hqs))
    have ha := hb (b, a) (by simp)
    rw [List.map_append, List.sum_append] at d3
    simp only [List.map_cons, List.map_nil, List.sum_cons, List.sum_nil] at d3
    simp only at ha he
    omega

/-- `pingedEvs` meets the hypotheses: a worker is registered, one wait of 100 ms is over and the next may
    last until the clock of 64 bits ends. -/
example : ∃ s : Sys Multi, SRun cfg0 env0 senv0 pingedEvs s ∧ s.h.workers.length = 1 ∧
    s.polls.getLast? = some (100000000, 200000000) ∧
    Spec.Monotone (s.polls ++ [(200000000, 2 ^ 63 - 1)]) ∧
    ∀ p ∈ s.polls ++ [(200000000, 2 ^ 63 - 1)], (0 : Int) ≤ p.1 ∧ p.2 < 2 ^ 63 := by
  obtain ⟨s, hr, hp⟩ := exists_srun (Q := Multi) (cfg := cfg0) (env := env0) (e := senv0) pingedEvs
    (fun s => decide (s.h.workers.length = 1) &&
        decide (s.polls = [(0, 100000000), (100000000, 200000000)])) (by decide +kernel)
  simp only [Bool.and_eq_true, decide_eq_true_eq] at hp
  obtain ⟨h1, h2⟩ := hp
  exact ⟨s, hr, h1, by rw [h2]; rfl, by rw [h2]; unfold Spec.Monotone; decide, by rw [h2]; decide⟩

end Broker
