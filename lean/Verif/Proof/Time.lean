import Verif.Props.Reactor
import Verif.Props.Liveness

/-!
# The history of the handler within an execution of the process, and the time it is told
-/

set_option linter.unusedSectionVars false

namespace Broker

variable {Q : Type} [QueueManager Q] [LawfulQM Q]

/-- What a transition of the process means for the handler. -/
theorem SStep.calls {cfg : HConfig} {env : Env} {e : SysEnv} {s s' : Sys Q} {ev : SysEv}
    (h : SStep cfg env e s ev s') :
    (s'.h = s.h ∧ s'.calls = s.calls) ∨
      ∃ m, s'.calls = s.calls ++ [m] ∧ step cfg env m s.h = .ok () s'.h := by
  cases h with
  | arrive => exact .inl ⟨rfl, rfl⟩
  | poll => exact .inl ⟨rfl, rfl⟩
  | sock => exact .inl ⟨rfl, rfl⟩
  | post ht hm =>
    obtain ⟨c1, c2, -⟩ := post_frame e (Q := Q) _ { s with todo := _, routed := _ }
    exact .inl ⟨c1, c2⟩
  | idle ht h => cases h <;> exact .inl ⟨rfl, rfl⟩
  | handle ht h hk hs => exact .inr ⟨_, rfl, hs⟩
  | fail ht h => cases h <;> exact .inl ⟨rfl, rfl⟩
  | connect => exact .inl ⟨rfl, rfl⟩
  | take => exact .inl ⟨rfl, rfl⟩

theorem SStep.polls {cfg : HConfig} {env : Env} {e : SysEnv} {s s' : Sys Q} {ev : SysEv}
    (h : SStep cfg env e s ev s') : ∃ ps, s'.polls = s.polls ++ ps := by
  cases h with
  | arrive => exact ⟨[], by simp⟩
  | poll => exact ⟨_, rfl⟩
  | sock => exact ⟨[], by simp⟩
  | post ht hm =>
    obtain ⟨-, -, -, -, -, -, -, -, -, c10, -⟩ := post_frame e (Q := Q) _ { s with todo := _, routed := _ }
    exact ⟨[], by rw [List.append_nil]; exact c10⟩
  | idle ht h => cases h <;> exact ⟨[], by simp⟩
  | handle ht h => cases h <;> exact ⟨[], by simp⟩
  | fail ht h => cases h <;> exact ⟨[], by simp⟩
  | connect => exact ⟨[], by simp⟩
  | take => exact ⟨[], by simp⟩

theorem SStep.halted {cfg : HConfig} {env : Env} {e : SysEnv} {s s' : Sys Q} {ev : SysEv} {err : Err}
    (h : SStep cfg env e s ev s') (hp : s.pc = .halt err) :
    s'.pc = .halt err ∧ s'.calls = s.calls ∧ s'.h = s.h := by
  cases h with
  | arrive => exact ⟨hp, rfl, rfl⟩
  | poll ht h => rw [hp] at h; cases h
  | sock => exact ⟨hp, rfl, rfl⟩
  | post ht hm =>
    obtain ⟨c1, c2, -, -, c5, -⟩ := post_frame e (Q := Q) _ { s with todo := _, routed := _ }
    exact ⟨c5.trans hp, c2, c1⟩
  | idle ht h => exact absurd hp (h.not_halt.1 err)
  | handle ht h => exact absurd hp (h.not_halt.1 err)
  | fail ht h => exact absurd hp (h.not_halt.1 err)
  | connect => exact ⟨hp, rfl, rfl⟩
  | take => exact ⟨hp, rfl, rfl⟩

theorem SRun.halted {cfg : HConfig} {env : Env} {e : SysEnv} {evs1 evs2 : List SysEv} {s1 s : Sys Q}
    {err : Err} (hr1 : SRun cfg env e evs1 s1) (hr : SRun cfg env e (evs1 ++ evs2) s)
    (hp : s1.pc = .halt err) : s.pc = .halt err ∧ s.calls = s1.calls ∧ s.h = s1.h := by
  induction evs2 using List.reverseRecOn generalizing s with
  | nil =>
    rw [List.append_nil] at hr
    have := hr1.unique hr
    subst this
    exact ⟨hp, rfl, rfl⟩
  | append_singleton evs2 ev ih =>
    rw [← List.append_assoc] at hr
    obtain ⟨s0, hr0, hs⟩ := hr.snoc_inv
    obtain ⟨a1, a2, a3⟩ := ih hr0
    obtain ⟨b1, b2, b3⟩ := (next_cases hr0.inv hs).halted a1
    exact ⟨b1, b2.trans a2, b3.trans a3⟩

/-- The history of the handler up to a moment of the execution, and from then on. -/
theorem SRun.history {cfg : HConfig} {env : Env} {e : SysEnv} {evs1 evs2 : List SysEv} {s1 s : Sys Q}
    (hr1 : SRun cfg env e evs1 s1) (hr : SRun cfg env e (evs1 ++ evs2) s) {h1 : List (Tr Q)}
    (a1 : Run cfg env h1 s1.h) (a2 : h1.map (·.msg) = s1.calls) :
    ∃ h2, Run cfg env (h1 ++ h2) s.h ∧ (h1 ++ h2).map (·.msg) = s.calls ∧
      ∃ ps, s.polls = s1.polls ++ ps := by
  induction evs2 using List.reverseRecOn generalizing s with
  | nil =>
    rw [List.append_nil] at hr
    have := hr1.unique hr
    subst this
    exact ⟨[], by simpa using a1, by simpa using a2, [], by simp⟩
  | append_singleton evs2 ev ih =>
    rw [← List.append_assoc] at hr
    obtain ⟨s0, hr0, hs⟩ := hr.snoc_inv
    obtain ⟨h2, a3, a4, ps, a5⟩ := ih hr0
    have hst := next_cases hr0.inv hs
    obtain ⟨ps', hp⟩ := hst.polls
    have hps : ∃ ps, s.polls = s1.polls ++ ps := ⟨ps ++ ps', by rw [hp, a5, List.append_assoc]⟩
    rcases hst.calls with ⟨b1, b2⟩ | ⟨m, b1, b2⟩
    · exact ⟨h2, by rw [b1]; exact a3, by rw [b2]; exact a4, hps⟩
    · refine ⟨h2 ++ [⟨s0.h, m, s.h⟩], ?_, ?_, hps⟩
      · rw [← List.append_assoc]; exact a3.snoc b2
      · rw [← List.append_assoc, List.map_append, a4, b1]; rfl

/-- The timer messages the handler was called with are those of the first polls. -/
theorem SRun.call_ticks {cfg : HConfig} {env : Env} {e : SysEnv} {evs : List SysEv} {s : Sys Q}
    (hr : SRun cfg env e evs s) : ∃ n, n ≤ s.polls.length ∧ msgsFor keyTimer s.calls =
      (s.polls.take n).map (fun p => timerMsg (elapsedMs p.1 p.2)) ∧
      ((∃ ks el, s.pc = .serve ks el) → n + 1 = s.polls.length) ∧ (s.pc = .poll → n = s.polls.length) := by
  obtain ⟨pend, h1, h2, h3, h4⟩ := hr.ticks
  obtain ⟨hist, crash, -, -, -, hc⟩ := hr.refines
  have hfil : ∀ l : List Msg, msgsFor keyTimer (l.filter (fun m => m.key != keyMonitor)) =
      msgsFor keyTimer l := by
    intro l
    unfold msgsFor
    rw [List.filter_filter]
    apply List.filter_congr
    intro x _
    by_cases h : x.key = keyTimer
    · rw [h]; decide
    · simp [h]
  have hlen := congrArg List.length h1
  rw [List.length_map, List.length_append] at hlen
  rcases hc with ⟨-, -, hc⟩ | ⟨err, m, h', hp, -, -, hc⟩
  · have h5 := map_eq_append_take h1
    refine ⟨(msgsFor keyTimer s.handled).length, by omega, ?_, ?_, ?_⟩
    · rw [hc, hfil]; exact h5
    · rintro ⟨ks, el, hpc⟩
      rw [h4 ks el hpc] at hlen
      simp at hlen; omega
    · intro hpc
      rw [h3 hpc] at hlen
      simp at hlen; omega
  · have hh : msgsFor keyTimer s.handled = msgsFor keyTimer s.calls ++ msgsFor keyTimer [m] := by
      rw [← hfil s.handled, ← hc, msgsFor_append]
    rw [hh, List.append_assoc] at h1
    have h5 := map_eq_append_take h1
    have hlen := congrArg List.length h1
    rw [List.length_map, List.length_append] at hlen
    refine ⟨(msgsFor keyTimer s.calls).length, by omega, h5, ?_, ?_⟩
    · rintro ⟨ks, el, hpc⟩; rw [hp] at hpc; cases hpc
    · intro hpc; rw [hp] at hpc; cases hpc

/-- The main thread handles a message of a worker: what follows in terms of the handler. -/
theorem SRun.since {cfg : HConfig} {env : Env} {e : SysEnv} {evs1 evs2 : List SysEv} {s1 s : Sys Q}
    (hr1 : SRun cfg env e evs1 s1) (hr : SRun cfg env e (evs1 ++ .main :: evs2) s)
    (ht : s1.todo = []) {ks : List String} {el : Int} (hpc : s1.pc = .serve ("workers" :: ks) el)
    {i : String} {d : List String} {rest : List (String × List String)}
    (hin : s1.inbox "workers" = (i, d) :: rest) :
    ((∃ err, s.pc = .halt err) ∧ s.h = s1.h) ∨
    ∃ h1 t h2, Run cfg env (h1 ++ t :: h2) s.h ∧ t.pre = s1.h ∧ t.msg = ⟨"workers", i, d⟩ ∧
      h1.map (·.msg) = s1.calls ∧ (h1 ++ t :: h2).map (·.msg) = s.calls ∧
      ∃ n ps, s.polls = s1.polls ++ ps ∧ n ≤ s.polls.length ∧ (s.pc = .poll → n = s.polls.length) ∧
        ((∃ ks el, s.pc = .serve ks el) → n + 1 = s.polls.length) ∧
        msgsFor keyTimer (h2.map (·.msg)) =
          ((s.polls.take n).drop (s1.polls.length - 1)).map (fun p => timerMsg (elapsedMs p.1 p.2)) := by
  have hr' : SRun cfg env e ((evs1 ++ [.main]) ++ evs2) s := by simpa using hr
  obtain ⟨s2, hr2⟩ := hr'.split rfl
  obtain ⟨s1', hr1', hs⟩ := hr2.snoc_inv
  have := hr1.unique hr1'
  subst this
  have hst := next_cases hr1.inv hs
  have hm : ∀ {m : Msg} {s0 : Sys Q}, Source s1 m s0 → m = ⟨"workers", i, d⟩ ∧ s0.polls = s1.polls := by
    intro m s0 h
    cases h with
    | recv hp h2 => rw [hpc] at hp; cases hp; rw [hin] at h2; cases h2; exact ⟨rfl, rfl⟩
    | timer hp => rw [hpc] at hp; cases hp
  cases hst with
  | sock ht' => rw [ht] at ht'; cases ht'
  | post ht' => rw [ht] at ht'; cases ht'
  | idle ht' h hk => rw [(hm h).1] at hk; exact absurd hk (show ("workers" : String) ≠ _ by decide)
  | fail ht' h hk hs' =>
    obtain ⟨b1, -, b3⟩ := hr2.halted hr' rfl
    refine .inl ⟨⟨_, b1⟩, b3.trans ?_⟩
    cases h <;> rfl
  | @handle m s0 h' ht' h hk hs' =>
    obtain ⟨rfl, hp0⟩ := hm h
    right
    obtain ⟨h1, c, a1, a2, -⟩ := hr1.refines
    have a1' := a1.snoc hs'
    obtain ⟨h2, b1, b2, ps, b3⟩ := hr2.history hr' a1' (by rw [List.map_append, a2]; rfl)
    obtain ⟨n1, c1, c2, c3, -⟩ := hr1.call_ticks
    obtain ⟨n, d1, d2, d3, d4⟩ := hr.call_ticks
    refine ⟨h1, _, h2, by simpa using b1, rfl, rfl, a2, by simpa using b2, n, ps, ?_, d1, d4, d3, ?_⟩
    · rw [b3]
      show s0.polls ++ ps = _
      rw [hp0]
    · have hn1 := c3 ⟨_, _, hpc⟩
      have e1 : msgsFor keyTimer s.calls = msgsFor keyTimer s1.calls ++ msgsFor keyTimer (h2.map (·.msg)) := by
        rw [← b2, List.map_append, List.map_append, a2, msgsFor_append, msgsFor_append]
        simp [msgsFor_single_ne (k := keyTimer) (m := ⟨"workers", i, d⟩)
          (show ("workers" : String) ≠ _ by decide)]
      have e2 := congrArg (List.drop n1) (d2.symm.trans e1)
      have e3 : (msgsFor keyTimer s1.calls).length = n1 := by
        rw [c2, List.length_map, List.length_take]; omega
      rw [← e3, List.drop_left, e3] at e2
      rw [← e2, List.map_drop, ← hn1]
      rfl

theorem take_drop_last {α : Type} {l ps : List α} {n : Nat} {f : α} (hf : l.getLast? = some f)
    (hn : l.length - 1 < n) : (((l ++ ps).take n).drop (l.length - 1)).head? = some f := by
  obtain ⟨l', rfl⟩ := List.getLast?_eq_some_iff.1 hf
  have : l'.length < n := by simpa using hn
  rw [List.head?_drop, List.getElem?_take_of_lt (by simpa using hn)]
  simp

theorem Spec.Monotone.sublist {l l' : List (Int × Int)} (h : Spec.Monotone l') (hs : l.Sublist l') :
    Spec.Monotone l :=
  ⟨fun p hp => h.1 p (hs.subset hp), h.2.sublist hs⟩

theorem last_le {l : List (Int × Int)} (h : Spec.Monotone l) {z : Int × Int} (hz : l.getLast? = some z)
    {p : Int × Int} (hp : p ∈ l) : p.2 ≤ z.2 := by
  obtain ⟨l', rfl⟩ := List.getLast?_eq_some_iff.1 hz
  rcases List.mem_append.1 hp with h' | h'
  · have := (List.pairwise_append.1 h.2).2.2 p h' z (by simp)
    have := h.1 z (by simp)
    omega
  · rw [List.mem_singleton.1 h']

/-- Numbers in the timer messages. -/
theorem tick_value {ms : List Msg} {zs : List Int} (h : msgsFor keyTimer ms = zs.map timerMsg)
    (hz : ∀ z ∈ zs, -2 ^ 63 ≤ z ∧ z < 2 ^ 63) {m : Msg} (hm : m ∈ ms) {x : Int}
    (hx : Spec.IsTick m x) : x ∈ zs := by
  have : m ∈ msgsFor keyTimer ms := by
    unfold msgsFor
    exact List.mem_filter.2 ⟨hm, by simpa using (show m.key = keyTimer from hx.1)⟩
  rw [h] at this
  obtain ⟨z, hz', rfl⟩ := List.mem_map.1 this
  obtain ⟨⟨f, h1, h2⟩, -⟩ := C49_roundtrip z (hz z hz').1 (hz z hz').2
  obtain ⟨-, f', r, h3, h4⟩ := hx
  rw [h1] at h3
  cases h3
  rw [(stoll_iff _ _).2 h4] at h2
  cases h2
  exact hz'

theorem SStep.arrived {cfg : HConfig} {env : Env} {e : SysEnv} {s s' : Sys Q} {ev : SysEv}
    (h : SStep cfg env e s ev s') : s'.arrived = s.arrived ∨ ∃ k i d, ev = .arrive k i d ∧
      s'.arrived = s.arrived ++ [(k, i, d)] := by
  cases h with
  | arrive => exact .inr ⟨_, _, _, rfl, rfl⟩
  | poll => exact .inl rfl
  | sock => exact .inl rfl
  | post ht hm => exact .inl (by unfold Sys.post; split <;> rfl)
  | idle ht h => cases h <;> exact .inl rfl
  | handle ht h => cases h <;> exact .inl rfl
  | fail ht h => cases h <;> exact .inl rfl
  | connect => exact .inl rfl
  | take => exact .inl rfl

/-- Messages of this worker among those that arrived. -/
theorem SRun.quiet {cfg : HConfig} {env : Env} {e : SysEnv} {evs1 evs2 : List SysEv} {s1 s : Sys Q}
    (hr1 : SRun cfg env e evs1 s1) (hr : SRun cfg env e (evs1 ++ evs2) s) {i : String}
    (hq : ∀ d, SysEv.arrive "workers" i d ∉ evs2) :
    (arrivedOn keyWorkers s.arrived).countP (fun x => x.1 == i) =
      (arrivedOn keyWorkers s1.arrived).countP (fun x => x.1 == i) := by
  induction evs2 using List.reverseRecOn generalizing s with
  | nil =>
    rw [List.append_nil] at hr
    have := hr1.unique hr
    subst this
    rfl
  | append_singleton evs2 ev ih =>
    rw [← List.append_assoc] at hr
    obtain ⟨s0, hr0, hs⟩ := hr.snoc_inv
    have ih := ih hr0 (fun d h => hq d (by simp [h]))
    rcases (next_cases hr0.inv hs).arrived with h | ⟨k, j, d, rfl, h⟩
    · rw [h]; exact ih
    · rw [h, ← ih]
      unfold arrivedOn
      rw [List.filter_append, List.map_append, List.countP_append]
      by_cases hk : k = keyWorkers
      · subst hk
        have : j ≠ i := by
          rintro rfl
          exact hq d (List.mem_append_right _ (List.mem_singleton.2 rfl))
        simp [this]
      · simp [hk]

theorem calls_count {cfg : HConfig} {env : Env} {e : SysEnv} {evs : List SysEv} {s : Sys Q}
    (hr : SRun cfg env e evs s) (i : String) :
    s.calls.countP (fun m => m.key == keyWorkers && m.identity == i) +
        (s.inbox keyWorkers).countP (fun x => x.1 == i) ≤
      (arrivedOn keyWorkers s.arrived).countP (fun x => x.1 == i) ∧
    ((∀ err, s.pc ≠ .halt err) →
      s.calls.countP (fun m => m.key == keyWorkers && m.identity == i) +
        (s.inbox keyWorkers).countP (fun x => x.1 == i) =
      (arrivedOn keyWorkers s.arrived).countP (fun x => x.1 == i)) := by
  have hf := hr.fifo (k := keyWorkers) (by rw [broker_order]; decide)
  have hcount : (arrivedOn keyWorkers s.arrived).countP (fun x => x.1 == i) =
      (s.handled.filter (fun m => m.key != keyMonitor)).countP
        (fun m => m.key == keyWorkers && m.identity == i) +
        (s.inbox keyWorkers).countP (fun x => x.1 == i) := by
    rw [hf, List.countP_append, List.countP_map]
    congr 1
    unfold msgsFor
    rw [List.countP_filter, List.countP_filter]
    apply List.countP_congr
    intro m _
    by_cases h : m.key = keyWorkers
    · have : keyWorkers ≠ keyMonitor := by decide
      simp [h, this, Function.comp]
    · simp [h]
  obtain ⟨hist, crash, -, -, -, hc⟩ := hr.refines
  rcases hc with ⟨-, -, hc⟩ | ⟨err, m, h', hp, -, -, hc⟩
  · rw [hcount, hc]; exact ⟨Nat.le_refl _, fun _ => rfl⟩
  · rw [hcount, ← hc, List.countP_append]
    exact ⟨by omega, fun h => absurd hp (h err)⟩


theorem waited_le : ∀ (l : List (Int × Int)), (∀ p ∈ l, p.1 ≤ p.2) →
    Spec.waited l - l.length * 1000000 ≤ (l.map (fun p => elapsedMs p.1 p.2)).sum * 1000000 := by
  intro l
  induction l with
  | nil => intro _; decide
  | cons p t ih =>
    intro h
    have ih := ih (fun q hq => h q (by simp [hq]))
    have hp := h p (by simp)
    have : p.2 - p.1 < elapsedMs p.1 p.2 * 1000000 + 1000000 := by
      unfold elapsedMs
      rw [Int.tdiv_eq_ediv_of_nonneg (by omega)]
      omega
    unfold Spec.waited at *
    simp only [List.map_cons, List.sum_cons, List.length_cons]
    push_cast
    omega

end Broker
