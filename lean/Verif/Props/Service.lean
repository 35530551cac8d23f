import Verif.Proof.Service
import Verif.Props.Reactor

/-!
# C62, C63: the end of the process, service of the sockets

The first two are about what can keep the main thread from serving messages, the third about how long a
message waits at a socket.
-/

set_option linter.unusedSectionVars false

namespace Broker

variable {Q : Type} [QueueManager Q] [LawfulQM Q]

/-! ## C62 -/

/-- **C62, the end of the process.**  The process ends only because of a message of a client or a worker
    that came in through a socket and is one of the malformed ones of `Spec.Hazard` (with at least one
    frame); a timer message never ends it, given clock readings of 64 bits. -/
theorem C62_end {cfg : HConfig} {env : Env} {e : SysEnv} {evs : List SysEv} {s : Sys Q}
    (hr : SRun cfg env e evs s) {err : Err} (hp : s.pc = .halt err)
    (hb : ∀ p ∈ s.polls, - 2 ^ 63 ≤ p.1 ∧ p.1 < 2 ^ 63 ∧ - 2 ^ 63 ≤ p.2 ∧ p.2 < 2 ^ 63) :
    ∃ m, s.handled.getLast? = some m ∧ (m.key = "workers" ∨ m.key = "clients") ∧
      (m.key, m.identity, m.data) ∈ s.arrived ∧ m.data ≠ [] ∧ Spec.Hazard m s.h := by
  obtain ⟨hd, m, h', h1, h2, h3⟩ := hr.crashed hp
  have hm : m ∈ s.handled := by rw [h1]; simp
  obtain ⟨hist, crash, hrun, -⟩ := hr.refines
  have hz : Spec.Hazard m s.h := by
    refine Classical.byContradiction fun h => ?_
    obtain ⟨s', hs⟩ := C20_partial hrun m h
    rw [hs] at h3
    cases h3
  have hnt : m.key ≠ "timer" := by
    intro hk
    obtain ⟨pend, k1, -⟩ := hr.ticks
    have : m ∈ msgsFor keyTimer s.handled := by
      unfold msgsFor
      exact List.mem_filter.2 ⟨hm, by simpa using (show m.key = keyTimer from hk)⟩
    have : m ∈ s.polls.map (fun p => timerMsg (elapsedMs p.1 p.2)) := by
      rw [k1]; exact List.mem_append_left _ this
    obtain ⟨p, hpm, rfl⟩ := List.mem_map.1 this
    have hbp := hb p hpm
    have hr64 : -2 ^ 63 ≤ elapsedMs p.1 p.2 ∧ elapsedMs p.1 p.2 < 2 ^ 63 := by
      unfold elapsedMs
      have k1 := Int.mul_tdiv_add_tmod (p.2 - p.1) 1000000
      have k2 := Int.tmod_lt_of_pos (p.2 - p.1) (b := 1000000) (by decide)
      have k3 : -1000000 < (p.2 - p.1).tmod 1000000 := by
        have := Int.tmod_lt_of_pos (-(p.2 - p.1)) (b := 1000000) (by decide)
        rw [Int.neg_tmod] at this
        omega
      omega
    have ht := (C49_roundtrip _ hr64.1 hr64.2).2
    cases hz with
    | empty h => rcases h with h | h <;> exact absurd h (show ("timer" : String) ≠ _ by decide)
    | init h => exact absurd h (show ("timer" : String) ≠ _ by decide)
    | done h => exact absurd h (show ("timer" : String) ≠ _ by decide)
    | evalShort h => exact absurd h (show ("timer" : String) ≠ _ by decide)
    | eval h => exact absurd h (show ("timer" : String) ≠ _ by decide)
    | timer _ h => exact h ⟨_, ht⟩
  have hk : m.key = "workers" ∨ m.key = "clients" := by
    cases hz with
    | empty h => exact h
    | init h => exact .inl h
    | done h => exact .inl h
    | evalShort h => exact .inr h
    | eval h => exact .inr h
    | timer h => exact absurd h hnt
  have ha := hr.handled_arrived hm (by
    rw [broker_order]
    rcases hk with h | h <;> rw [h] <;> decide)
  exact ⟨m, by rw [h1]; simp, hk, ha, hr.arrived_data _ ha, hz⟩

/-- **C62, back to waiting.**  From every situation the main thread gets back to waiting for messages (or
    ends) in finitely many steps of its own. -/
theorem C62_returns {cfg : HConfig} {env : Env} {e : SysEnv} {evs : List SysEv} {s : Sys Q}
    (hr : SRun cfg env e evs s) : ∃ n, ∃ s' : Sys Q, SRun cfg env e (evs ++ List.replicate n .main) s' ∧
      s'.todo = [] ∧ (s'.pc = .poll ∨ ∃ err, s'.pc = .halt err) := by
  rcases hr.inv.main_enabled (cfg := cfg) (env := env) (e := e) with ⟨h1, h2⟩ | ⟨h1, h2⟩ | ⟨s1, h⟩
  · exact ⟨0, s, by simpa using hr, h1, .inl h2⟩
  · exact ⟨0, s, by simpa using hr, h1, .inr h2⟩
  · have hdec := (next_cases hr.inv h).main_decreases
    obtain ⟨n, s', k1, k2, k3⟩ := C62_returns (hr.snoc h)
    refine ⟨n + 1, s', ?_, k2, k3⟩
    rw [List.replicate_succ]
    simpa using k1
termination_by (s.pc.left, s.todo.length)
decreasing_by
  rcases hdec with h | ⟨h1, h2⟩
  · exact Prod.Lex.left _ _ h
  · rw [h1]; exact Prod.Lex.right _ h2

/-! ## C63 -/

/-- **C63, service.**  Unless the process ended, once `zmq::poll` has returned `n + 1` times (or `n` times
    and the last round is complete) the `n` oldest messages that waited at a socket have been handled,
    in order, before any later one. -/
theorem C63_service {cfg : HConfig} {env : Env} {e : SysEnv} {evs1 evs2 : List SysEv} {s1 s : Sys Q}
    (hr1 : SRun cfg env e evs1 s1) (hr : SRun cfg env e (evs1 ++ evs2) s) {k : String}
    (hk : k ∈ ["clients", "monitor", "workers"]) (hgo : ∀ err, s.pc ≠ .halt err) {n : Nat}
    (hn : s1.polls.length + n + 1 ≤ s.polls.length ∨ s1.polls.length + n ≤ s.polls.length ∧ s.pc = .poll) :
    Spec.addressed k s1.handled ++ (s1.inbox k).take n <+: Spec.addressed k s.handled := by
  have hk' : k ∈ brokerWiring.order := by rw [broker_order]; exact hk
  have hpl := hr1.polls_count hr
  refine served_prefix hr1 hr hk' ?_
  rcases hr1.served hr hk' with ⟨err, h⟩ | h | ⟨ks, el, i1, i2, i3⟩
  · exact absurd h (hgo err)
  · omega
  · rcases hn with hn | ⟨hn, h⟩
    · omega
    · rw [i1] at h; cases h

/-! ## The hypotheses can be met -/

/-- C62: a client sends `eval` without a job; the process ends. -/
example : ∃ s : Sys Multi, SRun cfg0 env0 senv0
    [.arrive "clients" "c1" ["eval"], .poll 0 1000000, .main] s ∧
    (decide (s.polls = [(0, 1000000)]) && (match s.pc with | .halt _ => true | _ => false)) = true :=
  exists_srun _ _ (by decide +kernel)

/-- C62, C63: three messages of workers and one of a client wait; after two rounds the first two of the
    workers and the one of the client have been handled, and the main thread waits again. -/
example : ∃ s1 s : Sys Multi, SRun cfg0 env0 senv0
      [.arrive "workers" "w1" ["init", "group", "env=c"], .arrive "workers" "w1" ["ping"],
       .arrive "workers" "w2" ["ping"], .arrive "clients" "c1" ["get-runtime-stats"]] s1 ∧
    SRun cfg0 env0 senv0
      ([.arrive "workers" "w1" ["init", "group", "env=c"], .arrive "workers" "w1" ["ping"],
        .arrive "workers" "w2" ["ping"], .arrive "clients" "c1" ["get-runtime-stats"]] ++
       ([.poll 0 1000000] ++ List.replicate 4 .main ++ [.poll 1000000 2000000] ++ List.replicate 3 .main)) s ∧
    (decide ((s1.inbox "workers").length = 3)) = true ∧
    (decide (s1.polls.length + 2 ≤ s.polls.length) && decide ((s.inbox "workers").length = 1) &&
      decide (s.inbox "clients" = []) && (match s.pc with | .poll => true | _ => false)) = true := by
  obtain ⟨s1, h1, p1⟩ := exists_srun (Q := Multi) (cfg := cfg0) (env := env0) (e := senv0)
    [.arrive "workers" "w1" ["init", "group", "env=c"], .arrive "workers" "w1" ["ping"],
      .arrive "workers" "w2" ["ping"], .arrive "clients" "c1" ["get-runtime-stats"]]
    (fun s1 => decide ((s1.inbox "workers").length = 3) && decide (s1.polls = [])) (by decide +kernel)
  obtain ⟨s, h2, p2⟩ := exists_srun (Q := Multi) (cfg := cfg0) (env := env0) (e := senv0)
    ([.arrive "workers" "w1" ["init", "group", "env=c"], .arrive "workers" "w1" ["ping"],
      .arrive "workers" "w2" ["ping"], .arrive "clients" "c1" ["get-runtime-stats"]] ++
     ([.poll 0 1000000] ++ List.replicate 4 .main ++ [.poll 1000000 2000000] ++ List.replicate 3 .main))
    (fun s => decide (2 ≤ s.polls.length) && decide ((s.inbox "workers").length = 1) &&
      decide (s.inbox "clients" = []) && (match s.pc with | .poll => true | _ => false)) (by decide +kernel)
  simp only [Bool.and_eq_true, decide_eq_true_eq] at p1 p2 ⊢
  exact ⟨s1, s, h1, h2, p1.1, ⟨⟨⟨by rw [p1.2]; simpa using p2.1.1.1, p2.1.1.2⟩, p2.1.2⟩, p2.2⟩⟩

end Broker
