import Verif.Proof.Memory
import Verif.Props.Robustness

/-!
# C97: how much the broker keeps

The entries of the containers of the handler and of the queue manager are counted.  The claim - that
their number is bounded by a multiple of the number of workers and waiting jobs at that moment - is
false; the exact number is proved.
-/

namespace Broker

variable {Q : Type} [QueueManager Q]

/-- How many messages of the history registered a worker: afterwards the registry contains an object
    that it did not contain before. -/
def Spec.registrations (h : List (Tr Q)) : Nat :=
  h.countP fun t => t.post.workers.any fun w => !t.pre.workers.contains w

/-- Jobs that wait in some queue. -/
def Multi.waiting (q : Multi) : Nat := (q.queues.map (·.2.length)).sum

/-- Entries of `workers_` of the registry, `worker_timers_` of the handler, `queues_` with their
    jobs, `current_requests_` and `worker_queue_` of the queue manager. -/
def Multi.kept (s : HState Multi) : Nat :=
  s.workers.length + s.timers.length + s.queue.queues.length + s.queue.waiting +
    s.queue.current.length + s.queue.ring.length

/-- Jobs that wait in the queue. -/
def Single.waiting (q : Single) : Nat := q.jobs.length

/-- Entries of `workers_` of the registry, `worker_timers_` of the handler, `jobs_`, `worker_jobs_`
    and `workers_` of the queue manager. -/
def Single.kept (s : HState Single) : Nat :=
  s.workers.length + s.timers.length + s.queue.waiting + s.queue.current.length +
    s.queue.workers.length

theorem timers_length [LawfulQM Q] {cfg : HConfig} {env : Env} {h : List (Tr Q)} {s : HState Q}
    (hr : Run cfg env h s) : s.timers.length = Spec.registrations h := by
  induction hr with
  | nil => rfl
  | @snoc h s m s' hr hs ih =>
    rw [Spec.registrations, List.countP_append, ← Spec.registrations, ← ih]
    rcases (step_counts hr hs).2 with ⟨hl, hw⟩ | ⟨hl, w, hw, hn⟩
    · have hl : s'.timers.length = s.timers.length := hl
      have hw : s'.workers.Sublist s.workers := hw
      rw [hl, List.countP_singleton, if_neg]
      · rfl
      · intro ha
        obtain ⟨x, hx, hn⟩ := List.any_eq_true.1 ha
        have := hw.subset hx
        simp [this] at hn
    · have hl : s'.timers.length = s.timers.length + 1 := hl
      have hw : s'.workers = s.workers ++ [w] := hw
      have hn : w ∉ s.workers := hn
      rw [hl, List.countP_singleton, if_pos]
      simp only [List.any_eq_true]
      exact ⟨w, by simp [hw], by simp [hn]⟩

/-- **C97, partial, multi-queue manager.**  The number of entries is four for each registered worker,
    one for each waiting job, and one for each registration there has ever been.  Missing compared to
    the full statement: a bound in terms of the present workers and jobs, which does not exist
    (`C97_refuted_multi`). -/
theorem C97_multi_partial {cfg : HConfig} {env : Env} {h : List (Tr Multi)} {s : HState Multi}
    (hr : Run cfg env h s) :
    Multi.kept s = 4 * s.workers.length + s.queue.waiting + Spec.registrations h := by
  have hi := hr.inv.1
  have hq : s.queue.Inv := hi.qinv
  have e0 : s.workers.length = s.queue.ring.length := by
    have := congrArg Multiset.card hi.reg_eq
    exact this
  have e1 : s.queue.current.length = s.queue.ring.length := by simpa using hq.keysCur.length_eq
  have e2 : s.queue.queues.length = s.queue.ring.length := by simpa using hq.keysQue.length_eq
  have e3 := timers_length hr
  unfold Multi.kept
  omega

/-- **C97, partial, single-queue manager.**  Three for each registered worker, one for each waiting
    job, one for each registration there has ever been.  Missing: as for `C97_multi_partial`. -/
theorem C97_single_partial {cfg : HConfig} {env : Env} {h : List (Tr Single)} {s : HState Single}
    (hr : Run cfg env h s) :
    Single.kept s = 3 * s.workers.length + s.queue.waiting + Spec.registrations h := by
  have hi := hr.inv.1
  have hq : s.queue.Inv := hi.qinv
  have e0 : s.workers.length = s.queue.workers.length := by
    have := congrArg Multiset.card hi.reg_eq
    exact this
  have e1 : s.queue.current.length = s.queue.workers.length := by simpa using hq.keysCur.length_eq
  have e3 := timers_length hr
  unfold Single.kept
  omega

/-! ## The claim is false -/

/-- One registered worker, with a liveness of `n`, and `L` timers. -/
structure Alone (n L : Nat) (w : Worker) (s : HState Q) : Prop where
  workers : s.workers = [w]
  timer : s.timers.getD w 0 = 0
  live : s.live w.addr = n
  length : s.timers.length = L

theorem alone_tick [LawfulQM Q] {h : List (Tr Q)} {s : HState Q} (hr : Run cfg0 env0 h s) {n L : Nat}
    {w : Worker} (ha : Alone (n + 1) L w s) (hn : n < 4) :
    ∃ (h' : List (Tr Q)) (s' : HState Q), Run cfg0 env0 h' s' ∧ s'.timers.length = L ∧
      (if n = 0 then s'.workers = [] else Alone n L w s') := by
  have ht : Spec.IsTick (tick "1001") 1001 := ⟨rfl, "1001", [], rfl, (stoll_iff _ _).1 (by decide +kernel)⟩
  obtain ⟨s', hs⟩ := C21_no_late_crash hr (tick "1001") (.inl ⟨1001, ht⟩)
  have hrs := step_rs hs
  have hst : stoll "1001" = .ok 1001 := by decide +kernel
  have e : s.rs.step cfg0 env0 (tick "1001") = s.rs.timer cfg0 ["1001"] := by
    unfold RState.step tick
    rw [if_neg (by decide), if_neg (by decide), if_pos (by decide)]
  have hd : szDec (n + 1) = n := by
    unfold szDec SZ; omega
  rw [e] at hrs
  simp only [RState.timer, hst, show s.rs.workers = [w] from ha.workers, RState.tick, RState.tick1,
    show s.rs.timers = s.timers from rfl, show s.rs.live = s.live from rfl, ha.timer, ha.live, hd,
    show ((0 : Int) + 1001 > cfg0.pingInterval) from by decide, if_true] at hrs
  have hlen : s'.timers.length = L := by
    rcases (step_counts hr hs).2 with ⟨hl, _⟩ | ⟨_, x, hx, hnx⟩
    · exact hl.trans ha.length
    · exfalso
      have := congrArg RState.workers hrs
      rw [hx] at this
      have hsub := regRemoves_le (if decide (n ≤ 0) = true then [w] else []) [w]
      have := (congrArg List.length this).le.trans hsub.length_le
      simp [show s.rs.workers = [w] from ha.workers] at this
  refine ⟨_, s', hr.snoc hs, hlen, ?_⟩
  split
  · subst n
    have := congrArg RState.workers hrs
    have this : s'.workers = _ := this
    simpa [regRemove] using this
  · rename_i h0
    have h0' : ¬ n ≤ 0 := by omega
    have e1 := congrArg RState.workers hrs
    have e2 := congrArg RState.timers hrs
    have e3 := congrArg RState.live hrs
    have e1 : s'.workers = _ := e1
    refine ⟨by simpa [h0', h0] using e1, ?_, ?_, hlen⟩
    · have e2 : s'.timers = s.timers.put w 0 := e2
      rw [e2, WMap.getD, WMap.find_put_self]; rfl
    · have e3 : s'.live = upd s.live w.addr n := e3
      rw [e3]; simp [upd]

theorem alone_gone [LawfulQM Q] {L : Nat} {w : Worker} : ∀ (n : Nat) {h : List (Tr Q)} {s : HState Q},
    Run cfg0 env0 h s → Alone (n + 1) L w s → n < 4 →
    ∃ (h' : List (Tr Q)) (s' : HState Q), Run cfg0 env0 h' s' ∧ s'.timers.length = L ∧ s'.workers = [] := by
  intro n
  induction n with
  | zero =>
    intro h s hr ha hn
    obtain ⟨h', s', hr', hl, hw⟩ := alone_tick hr ha hn
    exact ⟨h', s', hr', hl, by simpa using hw⟩
  | succ n ih =>
    intro h s hr ha hn
    obtain ⟨h', s', hr', hl, hw⟩ := alone_tick hr ha hn
    exact ih hr' (by simpa using hw) (by omega)

/-- A worker comes and goes, its timer stays. -/
theorem visit [LawfulQM Q] {h : List (Tr Q)} {s : HState Q} (hr : Run cfg0 env0 h s)
    (hw : s.workers = []) : ∃ (h' : List (Tr Q)) (s' : HState Q), Run cfg0 env0 h' s' ∧ s'.workers = [] ∧
      s'.timers.length = s.timers.length + 1 := by
  obtain ⟨s1, hs1⟩ := C21_no_late_crash hr (fromW "w" ["init", "g"])
    (.inr (.inr (.inl ⟨rfl, "g", [], rfl, by intro f hf; simp [Spec.headerFrames] at hf⟩)))
  have hr1 := hr.snoc hs1
  have hrs := step_rs hs1
  obtain ⟨w, hw1, hi⟩ : ∃ w, s1.workers = [w] ∧ w.identity = "w" := by
    have e : s.rs.step cfg0 env0 (fromW "w" ["init", "g"]) = s.rs.register env0 "w" "g" [] [] := by
      have hf : s.rs.heard cfg0 "w" = s.rs := by
        unfold RState.heard
        rw [show s.rs.workers = [] from hw]; rfl
      unfold RState.step fromW
      rw [if_pos (by decide), if_pos (by decide)]
      show RState.init' env0 "w" ["init", "g"] (s.rs.heard cfg0 "w") = _
      rw [hf]
      simp only [RState.init', show s.rs.workers = [] from hw]
      rfl
    rw [e] at hrs
    unfold RState.register at hrs
    split at hrs
    · rename_i hc; simp [Worker.create, initExtra, mmEmplace, addMatchers] at hc
    · rename_i w hc
      have := congrArg RState.workers hrs
      rw [show s1.rs.workers = s1.workers from rfl] at this
      refine ⟨w, by simpa [show s.rs.workers = [] from hw] using this, (Worker.create_fields hc).2.1⟩
  have hl1 : s1.timers.length = s.timers.length + 1 := by
    rcases (step_counts hr hs1).2 with ⟨_, hsub⟩ | ⟨hl, _⟩
    · have hsub : s1.workers.Sublist s.workers := hsub
      have := hsub.length_le
      rw [hw, hw1] at this; simp at this
    · exact hl
  obtain ⟨s2, hs2⟩ := C21_no_late_crash hr1 (fromW "w" ["ping"])
    (.inr (.inr (.inr (.inr ⟨rfl, [], .inl rfl⟩))))
  have hr2 := hr1.snoc hs2
  have hrs2 := step_rs hs2
  have e2 : s1.rs.step cfg0 env0 (fromW "w" ["ping"]) =
      { s1.rs with live := upd s1.live w.addr 4, timers := s1.timers.put w 0 } := by
    unfold RState.step fromW
    rw [if_pos (by decide), if_neg (by decide)]
    show s1.rs.heard cfg0 "w" = _
    unfold RState.heard
    have : regFind "w" s1.rs.workers = some w := by
      show regFind "w" s1.workers = some w
      rw [hw1]; simp [regFind, hi]
    rw [this]; rfl
  rw [e2] at hrs2
  have h2w : s2.workers = [w] := (congrArg RState.workers hrs2).trans hw1
  have h2t : s2.timers = s1.timers.put w 0 := congrArg RState.timers hrs2
  have h2l : s2.live = upd s1.live w.addr 4 := congrArg RState.live hrs2
  have hl2 : s2.timers.length = s.timers.length + 1 := by
    rw [h2t, ← hl1]
    exact (hr1.timed.put (w := w) (by show w ∈ s1.workers; simp [hw1]) 0 s1.live).2
  obtain ⟨h', s', hr', hl, hg⟩ := alone_gone 3 hr2 (w := w)
    ⟨h2w, by rw [h2t, WMap.getD, WMap.find_put_self]; rfl, by rw [h2l]; simp [upd], hl2⟩ (by omega)
  exact ⟨h', s', hr', hg, hl⟩

theorem visits [LawfulQM Q] : ∀ n : Nat, ∃ (h : List (Tr Q)) (s : HState Q), Run cfg0 env0 h s ∧
    s.workers = [] ∧ s.timers.length = n
  | 0 => ⟨[], _, .nil, rfl, rfl⟩
  | n + 1 => by
    obtain ⟨h, s, hr, hw, hl⟩ := visits n
    obtain ⟨h', s', hr', hw', hl'⟩ := visit hr hw
    exact ⟨h', s', hr', hw', by rw [hl', hl]⟩

/-- **C97 is false, multi-queue manager.**  For every number there is a history after which there are
    no workers and no jobs, and the broker keeps that many entries. -/
theorem C97_refuted_multi :
    (∀ n, ∃ (h : List (Tr Multi)) (s : HState Multi), Run cfg0 env0 h s ∧ s.workers = [] ∧
      s.queue.waiting = 0 ∧ Multi.kept s = n) ∧
    ¬ ∃ c, ∀ (h : List (Tr Multi)) (s : HState Multi), Run cfg0 env0 h s →
      Multi.kept s ≤ c * (1 + s.workers.length + s.queue.waiting) := by
  have main : ∀ n, ∃ (h : List (Tr Multi)) (s : HState Multi), Run cfg0 env0 h s ∧ s.workers = [] ∧
      s.queue.waiting = 0 ∧ Multi.kept s = n := by
    intro n
    obtain ⟨h, s, hr, hw, hl⟩ := visits (Q := Multi) n
    have hi := hr.inv.1
    have hq : s.queue.Inv := hi.qinv
    have e0 : s.queue.ring.length = 0 := by
      have := congrArg Multiset.card hi.reg_eq
      rw [hw] at this; exact this.symm
    have e2 : s.queue.queues.length = s.queue.ring.length := by simpa using hq.keysQue.length_eq
    have e3 : s.queue.waiting = 0 := by
      rw [e0, List.length_eq_zero_iff] at e2
      unfold Multi.waiting; rw [e2]; rfl
    refine ⟨h, s, hr, hw, e3, ?_⟩
    rw [C97_multi_partial hr, hw, e3, ← timers_length hr, hl]; simp
  refine ⟨main, ?_⟩
  rintro ⟨c, H⟩
  obtain ⟨h, s, hr, hw, e, hk⟩ := main (c + 1)
  have := H h s hr
  rw [hw, e, hk] at this
  simp at this
  omega

/-- **C97 is false, single-queue manager.** -/
theorem C97_refuted_single :
    (∀ n, ∃ (h : List (Tr Single)) (s : HState Single), Run cfg0 env0 h s ∧ s.workers = [] ∧
      s.queue.waiting = 0 ∧ Single.kept s = n) ∧
    ¬ ∃ c, ∀ (h : List (Tr Single)) (s : HState Single), Run cfg0 env0 h s →
      Single.kept s ≤ c * (1 + s.workers.length + s.queue.waiting) := by
  have main : ∀ n, ∃ (h : List (Tr Single)) (s : HState Single), Run cfg0 env0 h s ∧ s.workers = [] ∧
      s.queue.waiting = 0 ∧ Single.kept s = n := by
    intro n
    obtain ⟨h, s, hr, hw, hl⟩ := visits (Q := Single) n
    have hi := hr.inv.1
    have hq : s.queue.Inv := hi.qinv
    have e0 : s.queue.workers = [] := by
      have := congrArg Multiset.card hi.reg_eq
      rw [hw] at this; exact List.length_eq_zero_iff.1 this.symm
    have e3 : s.queue.waiting = 0 := by
      unfold Single.waiting
      rw [List.length_eq_zero_iff, List.eq_nil_iff_forall_not_mem]
      intro x hx
      obtain ⟨w, hw, _⟩ := hq.can x hx
      rw [e0] at hw; cases hw
    refine ⟨h, s, hr, hw, e3, ?_⟩
    rw [C97_single_partial hr, hw, e3, ← timers_length hr, hl]; simp
  refine ⟨main, ?_⟩
  rintro ⟨c, H⟩
  obtain ⟨h, s, hr, hw, e, hk⟩ := main (c + 1)
  have := H h s hr
  rw [hw, e, hk] at this
  simp at this
  omega

/-- Two workers, one of them with two registrations, a running and a waiting job: 4 × 3 + 1 + 3. -/
example : ∃ (h : List (Tr Multi)) (s : HState Multi), Run cfg0 env0 h s ∧ s.workers.length = 3 ∧
    s.queue.waiting = 1 ∧ Spec.registrations h = 3 ∧ Multi.kept s = 16 := by
  obtain ⟨h, s, hr, hp⟩ := exists_run (Q := Multi) (cfg := cfg0) (env := env0)
    [fromW "w1" ["init", "g", "env=c"], fromW "w2" ["init", "g", "env=d"],
      fromW "w1" ["init", "g", "env=e"], fromC "c" ["eval", "J", "env=c", "", "u"],
      fromC "c" ["eval", "K", "env=c", "", "u"], fromW "w1" ["init", "g", "env=c"]]
    (fun h s => decide (s.workers.length = 3 ∧ s.queue.waiting = 1 ∧ Spec.registrations h = 3 ∧
      Multi.kept s = 16)) (by decide +kernel)
  exact ⟨h, s, hr, of_decide_eq_true hp⟩

end Broker
