import Verif.Proof.Time
import Verif.Props.Robustness

/-!
# How the sockets are served

What ends the process, how the main thread gets back to `zmq::poll`, and how many messages of a socket
have been handled after some rounds.
-/

set_option linter.unusedSectionVars false

namespace Broker

variable {Q : Type} [QueueManager Q] [LawfulQM Q]

theorem SRun.arrived_data {cfg : HConfig} {env : Env} {e : SysEnv} {evs : List SysEv} {s : Sys Q}
    (hr : SRun cfg env e evs s) : ∀ x ∈ s.arrived, x.2.2 ≠ [] := by
  refine SRun.induct (P := fun _ s => ∀ x ∈ s.arrived, x.2.2 ≠ []) (by simp [Sys.init]) ?_ hr
  intro evs s ev s' hr ih hi hst
  cases hst with
  | arrive hk hd =>
    intro x hx
    rcases List.mem_append.1 hx with h | h
    · exact ih x h
    · rw [List.mem_singleton.1 h]; exact hd
  | poll => exact ih
  | sock => exact ih
  | @post m t ht hm =>
    have : (Sys.post e m { s with todo := t, routed := s.routed ++ [m] }).arrived = s.arrived := by
      unfold Sys.post; split <;> rfl
    rw [this]; exact ih
  | idle ht h => cases h <;> exact ih
  | handle ht h => cases h <;> exact ih
  | fail ht h => cases h <;> exact ih
  | connect => exact ih
  | take => exact ih

/-- The message that ended the process. -/
theorem SRun.crashed {cfg : HConfig} {env : Env} {e : SysEnv} {evs : List SysEv} {s : Sys Q}
    (hr : SRun cfg env e evs s) {err : Err} (hp : s.pc = .halt err) :
    ∃ hd m h', s.handled = hd ++ [m] ∧ m.key ≠ keyMonitor ∧ step cfg env m s.h = .error err h' := by
  revert err
  refine SRun.induct (P := fun _ s => ∀ {err : Err}, s.pc = .halt err → ∃ hd m h',
    s.handled = hd ++ [m] ∧ m.key ≠ keyMonitor ∧ step cfg env m s.h = .error err h')
    (by intro err h; cases h) ?_ hr
  intro evs s ev s' hr ih hi hst err hp
  cases hst with
  | arrive => exact ih hp
  | poll => cases hp
  | sock => exact ih hp
  | @post m t ht hm =>
    obtain ⟨c1, -, -, c4, c5, -⟩ := post_frame e m { s with todo := t, routed := s.routed ++ [m] }
    have := ih (c5.symm.trans hp)
    rw [c1, c4]; exact this
  | idle ht h => exact absurd hp (h.not_halt.2 err)
  | handle ht h => exact absurd hp (h.not_halt.2 err)
  | fail ht h hk hs =>
    cases hp
    cases h <;> exact ⟨_, _, _, rfl, hk, hs⟩
  | connect => exact ih hp
  | take => exact ih hp

/-- Sockets and timer still to be served in this round. -/
def Pc.left : Pc → Nat
  | .serve ks _ => ks.length + 1
  | _ => 0

theorem Source.left {s s0 : Sys Q} {m : Msg} (h : Source s m s0) : s0.pc.left < s.pc.left := by
  cases h with
  | recv hpc => rw [hpc]; simp [Pc.left]
  | timer hpc => rw [hpc]; simp [Pc.left]

theorem SStep.main_decreases {cfg : HConfig} {env : Env} {e : SysEnv} {s s' : Sys Q}
    (h : SStep cfg env e s .main s') :
    s'.pc.left < s.pc.left ∨ (s'.pc.left = s.pc.left ∧ s'.todo.length < s.todo.length) := by
  cases h with
  | sock ht => right; rw [ht]; simp
  | @post m t ht =>
    right
    obtain ⟨-, -, -, -, c5, -, -, -, -, -, -, -, c13⟩ :=
      post_frame e m { s with todo := t, routed := s.routed ++ [m] }
    rw [c5, c13, ht]; simp
  | idle ht h => exact .inl h.left
  | handle ht h => exact .inl h.left
  | fail ht h => exact .inl (Nat.lt_of_le_of_lt (Nat.zero_le _) h.left)

/-- Messages handled from a socket. -/
def Spec.served (k : String) (s : Sys Q) : Nat := s.handled.countP (fun m => m.key == k)

/-- The event is the return of a poll. -/
def SysEv.polls : SysEv → Bool
  | .poll _ _ => true
  | _ => false

theorem SRun.polls_count {cfg : HConfig} {env : Env} {e : SysEnv} {evs1 evs2 : List SysEv}
    {s1 s : Sys Q} (hr1 : SRun cfg env e evs1 s1) (hr : SRun cfg env e (evs1 ++ evs2) s) :
    s.polls.length = s1.polls.length + evs2.countP SysEv.polls := by
  induction evs2 using List.reverseRecOn generalizing s with
  | nil =>
    rw [List.append_nil] at hr
    have := hr1.unique hr
    subst this
    simp
  | append_singleton evs2 ev ih =>
    rw [← List.append_assoc] at hr
    obtain ⟨s0, hr0, hs⟩ := hr.snoc_inv
    have ih := ih hr0
    have hst := next_cases hr0.inv hs
    rw [List.countP_append, List.countP_singleton, ← Nat.add_assoc, ← ih]
    cases hst with
    | arrive => rfl
    | poll ht hpc => simp [SysEv.polls]
    | sock => rfl
    | @post m t ht hm =>
      obtain ⟨-, -, -, -, -, -, -, -, -, c10, -⟩ :=
        post_frame e m { s0 with todo := t, routed := s0.routed ++ [m] }
      rw [c10]; rfl
    | idle ht h => cases h <;> rfl
    | handle ht h => cases h <;> rfl
    | fail ht h => cases h <;> rfl
    | connect => rfl
    | take => rfl

/-- What is guaranteed about a socket after some rounds. -/
def Served (k : String) (base n want : Nat) (s : Sys Q) : Prop :=
  (∃ err, s.pc = .halt err) ∨
  (base + min n want ≤ Spec.served k s) ∨
  ∃ ks el, s.pc = .serve ks el ∧ k ∈ ks ∧ base + min (n - 1) want ≤ Spec.served k s

theorem Served.same {k : String} {base n want : Nat} {s s' : Sys Q} (h : Served k base n want s)
    (h1 : s'.handled = s.handled) (h2 : s'.pc = s.pc) : Served k base n want s' := by
  unfold Served Spec.served
  rw [h1, h2]
  exact h

theorem Source.served {k : String} {base n want : Nat} {s s0 s' : Sys Q} {m : Msg} (h : Source s m s0)
    (ih : Served k base n want s) (h1 : s'.handled = s.handled ++ [m])
    (h2 : s'.pc = s0.pc ∨ ∃ err, s'.pc = .halt err) : Served k base n want s' := by
  rcases h2 with h2 | h2
  · rcases ih with ⟨err, ih⟩ | ih | ⟨ks, el, i1, i2, i3⟩
    · exact absurd ih (h.not_halt.1 err)
    · refine .inr (.inl (Nat.le_trans ih ?_))
      unfold Spec.served
      rw [h1, List.countP_append]; omega
    · cases h with
      | @recv k' i d rest ks' el' hpc hin =>
        rw [hpc] at i1
        cases i1
        rcases List.mem_cons.1 i2 with rfl | i2
        · refine .inr (.inl ?_)
          unfold Spec.served at *
          rw [h1, List.countP_append, List.countP_singleton]
          simp only [beq_self_eq_true, if_true]
          omega
        · refine .inr (.inr ⟨_, _, h2, i2, Nat.le_trans i3 ?_⟩)
          unfold Spec.served
          rw [h1, List.countP_append]; omega
      | timer hpc =>
        rw [hpc] at i1
        cases i1
        simp at i2
  · exact .inl h2

theorem SRun.arrived_mono {cfg : HConfig} {env : Env} {e : SysEnv} {evs1 evs2 : List SysEv}
    {s1 s : Sys Q} (hr1 : SRun cfg env e evs1 s1) (hr : SRun cfg env e (evs1 ++ evs2) s) :
    ∃ x, s.arrived = s1.arrived ++ x := by
  induction evs2 using List.reverseRecOn generalizing s with
  | nil =>
    rw [List.append_nil] at hr
    have := hr1.unique hr
    subst this
    exact ⟨[], by simp⟩
  | append_singleton evs2 ev ih =>
    rw [← List.append_assoc] at hr
    obtain ⟨s0, hr0, hs⟩ := hr.snoc_inv
    obtain ⟨x, hx⟩ := ih hr0
    rcases (next_cases hr0.inv hs).arrived with h | ⟨k, j, d, rfl, h⟩
    · exact ⟨x, by rw [h, hx]⟩
    · exact ⟨x ++ [(k, j, d)], by rw [h, hx, List.append_assoc]⟩

theorem served_fifo {cfg : HConfig} {env : Env} {e : SysEnv} {evs : List SysEv} {s : Sys Q}
    (hr : SRun cfg env e evs s) {k : String} (hk : k ∈ brokerWiring.order) :
    (arrivedOn k s.arrived).length = Spec.served k s + (s.inbox k).length := by
  rw [hr.fifo hk, List.length_append, List.length_map]
  unfold Spec.served msgsFor
  rw [List.countP_eq_length_filter]

theorem SRun.served {cfg : HConfig} {env : Env} {e : SysEnv} {evs1 evs2 : List SysEv} {s1 s : Sys Q}
    (hr1 : SRun cfg env e evs1 s1) (hr : SRun cfg env e (evs1 ++ evs2) s) {k : String}
    (hk : k ∈ brokerWiring.order) :
    Served k (Spec.served k s1) (evs2.countP SysEv.polls) (s1.inbox k).length s := by
  induction evs2 using List.reverseRecOn generalizing s with
  | nil =>
    rw [List.append_nil] at hr
    have := hr1.unique hr
    subst this
    exact .inr (.inl (by simp))
  | append_singleton evs2 ev ih =>
    rw [← List.append_assoc] at hr
    obtain ⟨s0, hr0, hs⟩ := hr.snoc_inv
    have ih := ih hr0
    have hi := hr0.inv
    have hst := next_cases hi hs
    rw [List.countP_append, List.countP_singleton]
    cases hst with
    | arrive => exact ih.same rfl rfl
    | poll ht hpc =>
      have hn : Spec.served k s1 + min (evs2.countP SysEv.polls) (s1.inbox k).length ≤ Spec.served k s0 := by
        rcases ih with ⟨err, ih⟩ | ih | ⟨ks, el, i1, _⟩
        · rw [hpc] at ih; cases ih
        · exact ih
        · rw [hpc] at i1; cases i1
      by_cases he : s0.inbox k = []
      · refine .inr (.inl ?_)
        obtain ⟨x, hx⟩ := hr1.arrived_mono hr0
        have h1 := served_fifo hr1 hk
        have h2 := served_fifo hr0 hk
        rw [he, hx] at h2
        unfold arrivedOn at h1 h2
        rw [List.filter_append, List.map_append, List.length_append, h1] at h2
        have : Spec.served k s0 = s0.handled.countP (fun m => m.key == k) := rfl
        simp only [List.length_nil] at h2
        show _ ≤ s0.handled.countP (fun m => m.key == k)
        omega
      · refine .inr (.inr ⟨_, _, rfl, ?_, ?_⟩)
        · rw [List.mem_filter]
          exact ⟨hk, by simpa using he⟩
        · simp only [SysEv.polls, if_true, Nat.add_sub_cancel]
          exact hn
    | sock => exact ih.same rfl rfl
    | @post m t ht hm =>
      obtain ⟨-, -, -, c4, c5, -⟩ := post_frame e m { s0 with todo := t, routed := s0.routed ++ [m] }
      exact ih.same c4 c5
    | idle ht h => exact h.served ih rfl (.inl rfl)
    | handle ht h => exact h.served ih rfl (.inl rfl)
    | fail ht h => exact h.served ih rfl (.inr ⟨_, rfl⟩)
    | connect => exact ih.same rfl rfl
    | take => exact ih.same rfl rfl

theorem served_prefix {cfg : HConfig} {env : Env} {e : SysEnv} {evs1 evs2 : List SysEv} {s1 s : Sys Q}
    (hr1 : SRun cfg env e evs1 s1) (hr : SRun cfg env e (evs1 ++ evs2) s) {k : String}
    (hk : k ∈ brokerWiring.order) {n : Nat}
    (h : Spec.served k s1 + min n (s1.inbox k).length ≤ Spec.served k s) :
    Spec.addressed k s1.handled ++ (s1.inbox k).take n <+: Spec.addressed k s.handled := by
  have h1 : arrivedOn k s1.arrived = Spec.addressed k s1.handled ++ s1.inbox k := hr1.fifo hk
  have h2 : arrivedOn k s.arrived = Spec.addressed k s.handled ++ s.inbox k := hr.fifo hk
  obtain ⟨x, hx⟩ := hr1.arrived_mono hr
  have h3 : arrivedOn k s.arrived = arrivedOn k s1.arrived ++ arrivedOn k x := by
    rw [hx]; unfold arrivedOn; rw [List.filter_append, List.map_append]
  refine List.prefix_of_prefix_length_le (l₃ := arrivedOn k s.arrived) ?_ ⟨_, h2.symm⟩ ?_
  · rw [h3, h1]
    refine ⟨(s1.inbox k).drop n ++ arrivedOn k x, ?_⟩
    simp only [List.append_assoc]
    rw [← List.append_assoc (List.take n _), List.take_append_drop]
  · rw [List.length_append, List.length_take]
    unfold Spec.addressed
    rw [List.length_map, List.length_map, ← List.countP_eq_length_filter, ← List.countP_eq_length_filter]
    exact h

end Broker
