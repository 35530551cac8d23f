import Verif.Proof.Stuck
import Verif.Props.Accounting

/-!
# C103: jobs of a worker that has started anew
-/

set_option linter.unusedSectionVars false

namespace Broker

open QueueManager LawfulQM

variable {Q : Type} [QueueManager Q] [LawfulQM Q]

/-- The worker the broker knows under the identity and the request it believes it is processing. -/
def Spec.BusyWith (s : HState Q) (w : Worker) (r : Req) : Prop :=
  w ∈ s.workers ∧ (currentRequest s.queue w).1 = some r

/-- An `init` that names no job: a worker that has just started. -/
def Spec.isFreshStart (m : Msg) : Bool :=
  m.key == "workers" && m.data.head? == some "init" &&
    !(m.data.any fun f => frameKey f == "current_job")

/-- The claim: there is a bound `B` such that a job the broker believes to be processed by a worker
    that then introduces itself without any job is, `B` ms later, no longer in that state: it was
    passed on to some worker, queued, or reported. -/
def Spec.TakenBack (Q : Type) [QueueManager Q] (cfg : HConfig) (env : Env) (B : Int) : Prop :=
  ∀ (h1 : List (Tr Q)) (t : Tr Q) (h2 : List (Tr Q)) (s : HState Q) (w : Worker) (r : Req),
    Run cfg env (h1 ++ t :: h2) s → Spec.isFreshStart t.msg = true → t.msg.identity = w.identity →
    Spec.BusyWith t.pre w r → ∀ T, Spec.Elapsed (h2.map (·.msg)) T → B ≤ T → ¬ Spec.BusyWith s w r

theorem busyWith_iff {s : HState Q} (hs : HInv s) {w : Worker} {r : Req} :
    Spec.BusyWith s w r ↔ (w, r) ∈ busy s.queue := by
  constructor
  · rintro ⟨h1, h2⟩; exact ((LawfulQM.current hs.qinv (hs.mem_reg.1 h1)).2 r).1 h2
  · intro h1
    have h2 := busy_reg hs.qinv _ h1
    exact ⟨hs.mem_reg.2 h2, ((LawfulQM.current hs.qinv h2).2 r).2 h1⟩

/-- **C103, what keeps a job.** As long as a worker is in the registry and sends no `done`, the broker
    believes it is processing the same request as before, whatever else it and others send: `init`
    messages with or without a job, with the same headers or others. -/
theorem C103_kept {cfg : HConfig} {env : Env} {h1 h2 : List (Tr Q)} {s1 s : HState Q}
    (hr1 : Run cfg env h1 s1) (hr : Run cfg env (h1 ++ h2) s) {w : Worker} {r : Req}
    (hb : Spec.BusyWith s1 w r) (hw : ∀ t ∈ h2, w ∈ t.post.workers)
    (hno : ∀ t ∈ h2, ¬ (t.msg.key = "workers" ∧ t.msg.identity = w.identity ∧
      t.msg.data.head? = some "done")) : Spec.BusyWith s w r := by
  refine Run.induct_after (P := fun _ s => Spec.BusyWith s w r) hr ?_ ?_
  · intro s' hr'
    rwa [hr'.unique hr1]
  · intro h t h' hh hrt hst ih
    have ht : t ∈ h2 := by rw [hh]; simp
    obtain ⟨evs, hi⟩ := step_info hrt.inv.1 hst
    exact (busyWith_iff hi.inv).2 (hi.keeps_init hrt.inv.1 ((busyWith_iff hrt.inv.1).1 ih) (hno t ht)
      (hw t ht))

/-- **C103, one message.** An `init` of a worker, whatever it says, does not take away what the broker
    believes it is processing. -/
theorem C103_init {cfg : HConfig} {env : Env} {h : List (Tr Q)} {s s' : HState Q} {m : Msg}
    (hr : Run cfg env h s) (hs : step cfg env m s = .ok () s') {w : Worker} {r : Req}
    (hb : Spec.BusyWith s w r) (hk : m.key = "workers") (hd : m.data.head? = some "init") :
    Spec.BusyWith s' w r := by
  obtain ⟨evs, hi⟩ := step_info hr.inv.1 hs
  refine (busyWith_iff hi.inv).2 (hi.keeps_init hr.inv.1 ((busyWith_iff hr.inv.1).1 hb) ?_ ?_)
  · rintro ⟨_, _, h⟩; rw [hd] at h; simp at h
  · refine hi.inv.mem_reg.2 (hi.steps.reg_mono (hi.no_expire ?_) (hr.inv.1.mem_reg.1 hb.1))
    rw [show m.key = keyWorkers from hk]; exact wkey_ne_tkey

/-- The messages of a worker that has nothing to do, and of the timer: `n` times a ping and then a
    timer message saying that a millisecond has passed. -/
def Spec.idling (i : String) : Nat → List Msg
  | 0 => []
  | n + 1 => ⟨"workers", i, ["ping"]⟩ :: tick "1" :: Spec.idling i n

theorem idling_elapsed (i : String) : ∀ n, Spec.Elapsed (Spec.idling i n) n
  | 0 => rfl
  | n + 1 => .inl ⟨show ¬ "workers" = "timer" by decide, .inr ⟨1, n, ⟨rfl, _, _, rfl, (stoll_iff _ _).1 (by decide +kernel)⟩,
      idling_elapsed i n, by omega⟩⟩

/-- **C103, for how long.** Whatever happened before, if the broker believes that a worker is
    processing a request, then this can go on for ever: the worker may ping for as long as it wants
    and never get anything but answers to its pings. -/
theorem C103_for_ever {cfg : HConfig} {env : Env} (hlive : 1 ≤ cfg.maxLiveness)
    (hping : 1 ≤ cfg.pingInterval) {h : List (Tr Q)} {s : HState Q} (hr : Run cfg env h s)
    {w : Worker} {r : Req} (hb : Spec.BusyWith s w r)
    (hf : s.workers.find? (fun x => x.identity == w.identity) = some w) (n : Nat) :
    ∃ h2 s', Run cfg env (h ++ h2) s' ∧ h2.map (·.msg) = Spec.idling w.identity n ∧
      Spec.BusyWith s' w r ∧ s'.workers.find? (fun x => x.identity == w.identity) = some w := by
  induction n generalizing h s with
  | zero => exact ⟨[], s, by simpa using hr, rfl, hb, hf⟩
  | succ n ih =>
    obtain ⟨s1, hs1⟩ := C20_partial hr ⟨"workers", w.identity, ["ping"]⟩ (by
      intro hz
      cases hz with
      | empty _ hd => cases hd
      | init _ hd => simp at hd
      | done _ hd => simp at hd
      | evalShort hk => exact absurd (show "workers" = "clients" from hk) (by decide)
      | eval hk => exact absurd (show "workers" = "clients" from hk) (by decide)
      | timer hk => exact absurd (show "workers" = "timer" from hk) (by decide))
    obtain ⟨p1, p2⟩ := ping_step hr.inv.1 hs1
    have hr1 := hr.snoc hs1
    have htick : Spec.IsTick (tick "1") 1 := ⟨rfl, _, _, rfl, (stoll_iff _ _).1 (by decide +kernel)⟩
    obtain ⟨s2, hs2⟩ := C20_partial hr1 (tick "1") (by
      intro hz
      cases hz with
      | empty hk => exact absurd hk (by decide)
      | init hk => exact absurd hk (by decide)
      | done hk => exact absurd hk (by decide)
      | evalShort hk => exact absurd hk (by decide)
      | eval hk => exact absurd hk (by decide)
      | timer _ hd => exact hd ⟨1, htick⟩)
    have hr2 := hr1.snoc hs2
    have hw2 : w ∈ s2.workers := by
      refine C13_no_premature_expiry (h1 := h) (t := ⟨s, ⟨"workers", w.identity, ["ping"]⟩, s1⟩)
        (h2 := [⟨s1, tick "1", s2⟩]) (by simpa using hr2) hlive rfl hf ?_ (T := 1)
        (.inr ⟨1, 0, htick, rfl, by omega⟩) ?_
      · intro t ht x hx
        rw [List.mem_singleton.1 ht] at hx
        have := tick_time (f := "1") (rest := []) rfl (time := 1) (by decide +kernel) hx
        omega
      · have h1 : (1 : Int) ≤ cfg.maxLiveness := by omega
        calc (1 : Int) = 1 * 1 := rfl
          _ ≤ cfg.maxLiveness * cfg.pingInterval := Int.mul_le_mul h1 hping (by omega) (by omega)
    have hf1 : s1.workers.find? (fun x => x.identity == w.identity) = some w := by rw [p1]; exact hf
    have hb1 : Spec.BusyWith s1 w r := by
      refine ⟨by rw [p1]; exact hb.1, ?_⟩
      rw [p2]; exact hb.2
    have hf2 := tick_find hr1.inv.1 hs2 rfl hf1 hw2
    obtain ⟨evs, hi2⟩ := step_info hr1.inv.1 hs2
    have hb2 : Spec.BusyWith s2 w r := (busyWith_iff hi2.inv).2 (hi2.keeps_init hr1.inv.1
      ((busyWith_iff hr1.inv.1).1 hb1) (fun h => absurd h.1 (by decide)) hw2)
    obtain ⟨h2, s', hr', hm, hb', hf'⟩ := ih hr2 hb2 hf2
    refine ⟨⟨s, ⟨"workers", w.identity, ["ping"]⟩, s1⟩ :: ⟨s1, tick "1", s2⟩ :: h2, s',
      by simpa using hr', ?_, hb', hf'⟩
    simp [hm, Spec.idling]

/-- **C103, nothing is reported.** In such a state a job that was accepted once and adopted from no
    worker has got no final notification. -/
theorem C103_unreported {cfg : HConfig} {env : Env} {h : List (Tr Q)} {s : HState Q}
    (hr : Run cfg env h s) {w : Worker} {r : Req} (hb : Spec.BusyWith s w r)
    (ha : h.countP (Spec.accepts r.jobId) = 1) (hn : h.countP (Spec.adopts r.jobId) = 0) :
    (emitted h).countP (Spec.isFinal r.jobId) = 0 := by
  have h1 := C01_job_accounting hr r.jobId
  have h2 : 0 < (heldJobs s).count r.jobId := by
    rw [Multiset.count_pos]
    exact Multiset.mem_add.2 (.inl (Multiset.mem_map.2 ⟨_, (busyWith_iff hr.inv.1).1 hb, rfl⟩))
  omega

/-- **C103, partial.** A worker the broker heard from and then no more loses its job: once the timer
    messages report more than `max_liveness` intervals, each prolonged by the longest tick `D`, the
    broker no longer believes that it is processing anything; a job that was accepted once and adopted
    from no worker is then held elsewhere, or its final notification was sent.  Missing compared to the
    full statement: workers that are heard from; for those it is false (`C103_refuted_single`,
    `C103_for_ever`). -/
theorem C103_silent_partial {cfg : HConfig} {env : Env} {h1 h2 : List (Tr Q)} {t : Tr Q}
    {s : HState Q} (hr : Run cfg env (h1 ++ t :: h2) s) (hlive : 1 ≤ cfg.maxLiveness)
    (hping : 0 ≤ cfg.pingInterval) {w : Worker} (hk : t.msg.key = "workers")
    (hw : t.pre.workers.find? (fun w => w.identity == t.msg.identity) = some w)
    (hsilent : ∀ t' ∈ h2, ¬ (t'.msg.key = "workers" ∧ t'.msg.identity = w.identity)) {D : Int}
    (hD : 0 ≤ D) (htick : ∀ t' ∈ h2, ∀ x, Spec.IsTick t'.msg x → x ≤ D) {T : Int}
    (hT : Spec.Elapsed (h2.map (·.msg)) T)
    (hlt : cfg.maxLiveness * (cfg.pingInterval + D) < T) {j : String}
    (ha : (h1 ++ t :: h2).countP (Spec.accepts j) = 1)
    (hn : (h1 ++ t :: h2).countP (Spec.adopts j) = 0) :
    (∀ r, ¬ Spec.BusyWith s w r) ∧
      ((heldJobs s).count j = 1 ∨ (emitted (h1 ++ t :: h2)).countP (Spec.isFinal j) = 1) := by
  have hgone := C14_silent_expires_partial hr hlive hping hk hw hsilent hD htick hT hlt
  refine ⟨fun r hb => hgone hb.1, ?_⟩
  have := C01_job_accounting hr j
  omega

/-- A worker gets a job and starts anew. -/
def restartMsgs : List Msg :=
  [fromW "w1" ["init", "group", "env=c"], fromC "c" ["eval", "J1", "env=c", "", "x"]]

theorem not_takenBack (Q : Type) [QueueManager Q] [LawfulQM Q]
    (hp : (exec0 Q cfg0 env0 (restartMsgs ++ [fromW "w1" ["init", "group", "env=c"]])).any
      (fun x => x.1[2]?.any (fun t =>
        t.pre.workers.head?.any (fun w => w.identity == "w1" &&
          (currentRequest t.pre.queue w).1.isSome &&
          x.2.workers.find? (fun x => x.identity == w.identity) == some w))) = true) (B : Int) :
    ¬ Spec.TakenBack Q cfg0 env0 B := by
  intro H
  obtain ⟨h1, t, h2, s, hr, hm1, hm, hm2, hq⟩ := exists_split (Q := Q) restartMsgs
    (fromW "w1" ["init", "group", "env=c"]) [] (fun t s =>
        t.pre.workers.head?.any (fun w => w.identity == "w1" &&
          (currentRequest t.pre.queue w).1.isSome &&
          s.workers.find? (fun x => x.identity == w.identity) == some w)) hp
  have hm2 : h2 = [] := by simpa using hm2
  subst hm2
  obtain ⟨w, hw, hq⟩ := (Option.any_eq_true _ _).1 hq
  simp only [Bool.and_eq_true, beq_iff_eq] at hq
  obtain ⟨⟨q1, q2⟩, q3⟩ := hq
  obtain ⟨r, hc⟩ := Option.isSome_iff_exists.1 q2
  have hb : Spec.BusyWith t.pre w r := ⟨List.mem_of_mem_head? hw, hc⟩
  obtain ⟨hr1, hst, _⟩ := hr.prefix
  have hs := hr.last
  subst hs
  have hb' := C103_init hr1 hst hb (by rw [hm]; rfl) (by rw [hm]; rfl)
  obtain ⟨h2, s', hr', hm', hb2, _⟩ := C103_for_ever (by decide) (by decide) hr hb' q3 B.toNat
  refine H h1 t h2 s' w r (by simpa using hr') (by rw [hm]; decide +kernel)
    (by rw [hm, q1]; rfl) hb B.toNat (by rw [hm']; exact idling_elapsed _ _) (by omega) hb2

/-- **C103 is false**: no bound will do. -/
theorem C103_refuted_single (B : Int) : ¬ Spec.TakenBack Single cfg0 env0 B :=
  not_takenBack Single (by decide +kernel) B

theorem C103_refuted_multi (B : Int) : ¬ Spec.TakenBack Multi cfg0 env0 B :=
  not_takenBack Multi (by decide +kernel) B

/-! ## Examples -/

/-- C103_kept, C103_init and C103_unreported: the worker starts anew twice, the second time with other
    headers; the job was accepted once and adopted from no worker. -/
example : ∃ (h1 h2 : List (Tr Multi)) (t : Tr Multi) (s : HState Multi) (w : Worker) (r : Req),
    Run cfg0 env0 (h1 ++ t :: h2) s ∧ Spec.BusyWith t.pre w r ∧ Spec.isFreshStart t.msg = true ∧
    t.msg.identity = w.identity ∧ (∀ t' ∈ t :: h2, w ∈ t'.post.workers) ∧
    (∀ t' ∈ t :: h2, t'.msg.data.head? ≠ some "done") ∧ s.workers.length = 2 ∧
    (h1 ++ t :: h2).countP (Spec.accepts r.jobId) = 1 ∧
    (h1 ++ t :: h2).countP (Spec.adopts r.jobId) = 0 ∧ Spec.BusyWith s w r := by
  obtain ⟨h, s, hr, hq⟩ := exists_run (Q := Multi) (cfg := cfg0) (env := env0)
    (restartMsgs ++ [fromW "w1" ["init", "group", "env=c"], tick "500",
      fromW "w1" ["init", "group", "env=java"]])
    (fun h s => h.countP (Spec.accepts "J1") == 1 && h.countP (Spec.adopts "J1") == 0 &&
        s.workers.length == 2 &&
        (h.drop 2).head?.any (fun t => Spec.isFreshStart t.msg &&
          t.pre.workers.head?.any (fun w => t.msg.identity == w.identity &&
            (currentRequest t.pre.queue w).1.any (fun r => r.jobId == "J1") &&
            (h.drop 2).all (fun t => t.post.workers.contains w &&
              t.msg.data.head? != some "done")))) (by decide +kernel)
  simp only [Bool.and_eq_true, beq_iff_eq] at hq
  obtain ⟨⟨⟨q1, q2⟩, q3⟩, q4⟩ := hq
  obtain ⟨t, ht, q5⟩ := (Option.any_eq_true _ _).1 q4
  simp only [Bool.and_eq_true] at q5
  obtain ⟨q6, q7⟩ := q5
  obtain ⟨w, hw, q8⟩ := (Option.any_eq_true _ _).1 q7
  simp only [Bool.and_eq_true, beq_iff_eq] at q8
  obtain ⟨⟨q9, q10⟩, q11⟩ := q8
  obtain ⟨r, hc, q12⟩ := (Option.any_eq_true _ _).1 q10
  have q12 : r.jobId = "J1" := by simpa using q12
  obtain ⟨l, hl⟩ : ∃ l, h.drop 2 = t :: l := by
    cases hd : h.drop 2 with
    | nil => rw [hd] at ht; cases ht
    | cons a l => rw [hd] at ht; simp at ht; exact ⟨l, by rw [ht]⟩
  rw [hl] at q11
  have hh : h = h.take 2 ++ t :: l := by rw [← hl, List.take_append_drop]
  rw [hh] at hr q1 q2
  have hall : ∀ t' ∈ t :: l, w ∈ t'.post.workers ∧ t'.msg.data.head? ≠ some "done" := by
    intro t' ht'
    have := List.all_eq_true.1 q11 t' ht'
    simpa using this
  have hb : Spec.BusyWith t.pre w r := ⟨List.mem_of_mem_head? hw, hc⟩
  refine ⟨h.take 2, l, t, s, w, r, hr, hb, q6, q9, fun t' ht' => (hall t' ht').1,
    fun t' ht' => (hall t' ht').2, q3, by rw [q12]; exact q1, by rw [q12]; exact q2, ?_⟩
  exact C103_kept hr.prefix.1 hr hb (fun t' ht' => (hall t' ht').1)
    (fun t' ht' hx => (hall t' ht').2 hx.2.2)

/-- C103_for_ever for a thousand milliseconds, with a second worker waiting that could do the job. -/
example : ∃ (h h2 : List (Tr Single)) (s s' : HState Single) (w : Worker) (r : Req),
    Run cfg0 env0 h s ∧ Spec.BusyWith s w r ∧ s.workers.length = 2 ∧ Run cfg0 env0 (h ++ h2) s' ∧
    h2.map (·.msg) = Spec.idling "w1" 1000 ∧ Spec.BusyWith s' w r := by
  obtain ⟨h, s, hr, hq⟩ := exists_run (Q := Single) (cfg := cfg0) (env := env0)
    (restartMsgs ++ [fromW "w2" ["init", "group", "env=c"]])
    (fun _ s => s.workers.length == 2 && s.workers.any (fun w => w.identity == "w1" &&
      (currentRequest s.queue w).1.isSome &&
      s.workers.find? (fun x => x.identity == w.identity) == some w)) (by decide +kernel)
  simp only [Bool.and_eq_true, beq_iff_eq, List.any_eq_true] at hq
  obtain ⟨q1, w, hw, ⟨q2, q3⟩, q4⟩ := hq
  obtain ⟨r, hc⟩ := Option.isSome_iff_exists.1 q3
  obtain ⟨h2, s', hr', hm, hb, _⟩ := C103_for_ever (by decide) (by decide) hr ⟨hw, hc⟩ q4 1000
  exact ⟨h, h2, s, s', w, r, hr, ⟨hw, hc⟩, q1, hr', by rw [hm, q2], hb⟩

/-- C103_silent_partial: the worker pings once more and is silent, the job goes to another one. -/
example : ∃ (h1 : List (Tr Multi)) (t : Tr Multi) (h2 : List (Tr Multi)) (s : HState Multi)
    (w : Worker), Run cfg0 env0 (h1 ++ t :: h2) s ∧ t.msg.key = "workers" ∧
    t.pre.workers.find? (fun w => w.identity == t.msg.identity) = some w ∧
    (∀ t' ∈ h2, ¬ (t'.msg.key = "workers" ∧ t'.msg.identity = w.identity)) ∧
    (∀ t' ∈ h2, ∀ x, Spec.IsTick t'.msg x → x ≤ 1001) ∧
    Spec.Elapsed (h2.map (·.msg)) (9 * 1001) ∧
    (cfg0.maxLiveness * (cfg0.pingInterval + 1001) < (9 * 1001 : Int)) ∧
    (h1 ++ t :: h2).countP (Spec.accepts "J1") = 1 ∧
    (h1 ++ t :: h2).countP (Spec.adopts "J1") = 0 ∧ ∃ r, Spec.BusyWith t.pre w r := by
  obtain ⟨h, s, hr, hq⟩ := exists_run (Q := Multi) (cfg := cfg0) (env := env0)
    (restartMsgs ++ [fromW "w1" ["ping"], fromW "w2" ["init", "group", "env=c"]] ++
      List.replicate 9 (tick "1001"))
    (fun h _ => h.map (·.msg) == restartMsgs ++ [fromW "w1" ["ping"],
        fromW "w2" ["init", "group", "env=c"]] ++ List.replicate 9 (tick "1001") &&
      h.countP (Spec.accepts "J1") == 1 && h.countP (Spec.adopts "J1") == 0 &&
      (h.drop 2).head?.any (fun t => (t.pre.workers.find?
        (fun w => w.identity == t.msg.identity)).any (fun w => w.identity == "w1" &&
          (currentRequest t.pre.queue w).1.isSome))) (by decide +kernel)
  simp only [Bool.and_eq_true, beq_iff_eq] at hq
  obtain ⟨⟨⟨q0, q1⟩, q2⟩, q4⟩ := hq
  obtain ⟨t, ht, q5⟩ := (Option.any_eq_true _ _).1 q4
  obtain ⟨w, hw, q6⟩ := (Option.any_eq_true _ _).1 q5
  simp only [Bool.and_eq_true, beq_iff_eq] at q6
  obtain ⟨r, hc⟩ := Option.isSome_iff_exists.1 q6.2
  obtain ⟨l, hl⟩ : ∃ l, h.drop 2 = t :: l := by
    cases hd : h.drop 2 with
    | nil => rw [hd] at ht; cases ht
    | cons a l => rw [hd] at ht; simp at ht; exact ⟨l, by rw [ht]⟩
  have hh : h = h.take 2 ++ t :: l := by rw [← hl, List.take_append_drop]
  have hmsgs : (t :: l).map (·.msg) = fromW "w1" ["ping"] :: fromW "w2" ["init", "group", "env=c"] ::
      List.replicate 9 (tick "1001") := by
    rw [← hl, List.map_drop, q0]; rfl
  simp only [List.map_cons, List.cons.injEq] at hmsgs
  rw [hh] at hr q1 q2
  have htick : Spec.IsTick (tick "1001") 1001 :=
    ⟨rfl, _, _, rfl, (stoll_iff _ _).1 (by decide +kernel)⟩
  have hel : ∀ n : Nat, Spec.Elapsed (List.replicate n (tick "1001")) (n * 1001) := by
    intro n
    induction n with
    | zero => rfl
    | succ n ih => exact .inr ⟨1001, n * 1001, htick, ih, by push_cast; omega⟩
  have hmem : ∀ t' ∈ l, t'.msg = fromW "w2" ["init", "group", "env=c"] ∨ t'.msg = tick "1001" := by
    intro t' ht'
    have : t'.msg ∈ l.map (·.msg) := List.mem_map.2 ⟨t', ht', rfl⟩
    rw [hmsgs.2] at this
    rcases List.mem_cons.1 this with h | h
    · exact .inl h
    · exact .inr (List.eq_of_mem_replicate h)
  refine ⟨h.take 2, t, l, s, w, hr, by rw [hmsgs.1]; rfl, hw, ?_, ?_, ?_, by decide, q1, q2, r,
    List.mem_of_find?_eq_some hw, hc⟩
  · rintro t' ht' ⟨h1, h2⟩
    rw [q6.1] at h2
    rcases hmem t' ht' with h | h <;> rw [h] at h1 h2
    · exact absurd h2 (by decide)
    · exact absurd h1 (by decide)
  · intro t' ht' x hx
    rcases hmem t' ht' with h | h <;> rw [h] at hx
    · exact absurd hx.1 (by decide)
    · have := tick_time (f := "1001") (rest := []) rfl (time := 1001) (by decide +kernel) hx
      omega
  · rw [hmsgs.2]
    exact .inl ⟨by decide, hel 9⟩

end Broker
