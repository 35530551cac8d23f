import Verif.Proof.Anew
import Verif.Props.Unseen

/-!
# C111: a broker without workers is as good as new
-/

namespace Broker

namespace Spec

/-- A broker that was just started, but with these statistics, and frozen or not. -/
def started (Q : Type) [QueueManager Q] (st : Stats) (frozen : Bool) : HState Q :=
  { HState.init Q with stats := st, frozen := frozen }

/-- No client asks for statistics. -/
def NoQuery (ms : List Msg) : Prop :=
  ∀ m ∈ ms, m.key ≠ "clients" ∨ m.data.head? ≠ some "get-runtime-stats"

instance (ms : List Msg) : Decidable (NoQuery ms) := by unfold NoQuery; exact inferInstance

end Spec

theorem LayoutEq.started {Q : Type} [QueueManager Q] [Carries Q] [LayoutQM Q] (st : Stats) (fr : Bool) :
    LayoutEq (Spec.started Q st fr) (Spec.started Q st fr) :=
  ⟨fun _ _ => False,
    { one := ⟨fun h => h.elim, fun h => h.elim⟩, inj := id, alike := same_headers, good := LayoutQM.good_empty id False Eq (fun _ => Eq) fun _ => True
      dom := fun _ _ h => h.elim, workers := .nil, queue := LayoutQM.empty _
      asks := fun _ _ => trivial, none := trivial
      timers := MapRel.nil, live := fun _ _ h => h.elim, fc := rfl, nextRid := rfl
      allocs := rfl, clockReads := rfl, stats := rfl, frozen := rfl, outs := .nil }⟩

section
variable {Q : Type} [QueueManager Q] [BareQM Q] [LawfulQM Q]

/-- Without workers and jobs the broker goes on like one that was just started, with what the
    clock and the allocator will answer. -/
theorem Run.anew_transcript {cfg : HConfig} {env env0 : Env} (he : BareQM.okSort Q env0.srt)
    {h : List (Tr Q)} {s : HState Q} (hr : Run cfg env h s) (hw : s.workers = [])
    (hq : s.queue = QueueManager.empty) (ms : List Msg) {st : Stats}
    (hst : s.stats = st ∨ Spec.NoQuery ms) (b : Bool) :
    transcript cfg env0 s ms =
      transcript cfg (env0.after (s.past b)) (Spec.started Q st s.frozen) ms := by
  have e : env0.after (s.past b) = env0.after (s.past true) := rfl
  have e' : env0.after (s.past b) = env0.after (s.past false) := rfl
  rcases hst with h | h
  · rw [e]
    exact transcript_anew rfl he ms (.inl rfl) (hr.anew hw hq true fun _ => h)
  · rw [e']
    exact transcript_anew rfl he ms (.inr h) (hr.anew hw hq false (fun h => by cases h))

end

/-! ## The multi-queue manager -/

/-- **C111** (multi-queue manager).  Whenever no worker is registered, the broker has nothing left of
    its history but the statistics and whether it is frozen: from then on it sends the same messages
    and fails in the same way as a broker that was just started with them, whatever the clock and
    the allocator of that one. -/
theorem C111_multi {cfg : HConfig} {env : Env} {h : List (Tr Multi)} {s : HState Multi}
    (hr : Run cfg env h s) (hw : s.workers = []) (env' : Env) (ms : List Msg) :
    transcript cfg env s ms = transcript cfg env' (Spec.started Multi s.stats s.frozen) ms := by
  rw [hr.anew_transcript (env0 := env) trivial hw (Multi.none_left hr hw) ms (.inl rfl) true]
  exact transcript_layout cfg (Q := Multi) trivial ms (LayoutEq.started _ _)

/-- **C111** (multi-queue manager).  If it is not frozen and nobody asks for statistics, it cannot be
    told apart from a new one. -/
theorem C111_multi_new {cfg : HConfig} {env : Env} {h : List (Tr Multi)} {s : HState Multi}
    (hr : Run cfg env h s) (hw : s.workers = []) (hf : s.frozen = false) (env' : Env)
    {ms : List Msg} (hq : Spec.NoQuery ms) :
    transcript cfg env s ms = observed Multi cfg env' ms := by
  rw [hr.anew_transcript (env0 := env) (st := (HState.init Multi).stats) trivial hw
    (Multi.none_left hr hw) ms (.inr hq) true, hf]
  exact transcript_layout cfg (Q := Multi) trivial ms LayoutEq.init

/-! ## The single-queue manager -/

/-- **C111** (single-queue manager).  The same, where the new broker has the same sorting algorithm,
    reads the times that are still to come, and has some allocator.  The sorting algorithm must not
    look at anything but times. -/
theorem C111_single_env {cfg : HConfig} {env : Env} (hb : env.srt.Blind) {h : List (Tr Single)}
    {s : HState Single} (hr : Run cfg env h s) (hw : s.workers = []) :
    ∃ env' : Env, env'.srt = env.srt ∧ (∀ n, env'.clock n = env.clock (n + s.clockReads)) ∧
      ∀ ms, transcript cfg env s ms =
        transcript cfg env' (Spec.started Single s.stats s.frozen) ms :=
  ⟨env.after (s.past true), rfl, fun _ => rfl, fun ms =>
    hr.anew_transcript (env0 := env) hb hw (Single.none_left hr hw) ms (.inl rfl) true⟩


theorem single_anew {cfg : HConfig} {env : Env} {h : List (Tr Single)} {s : HState Single}
    (hr : Run cfg env h s) (hw : s.workers = []) (ho : Spec.InOrder env)
    (hup : ∀ n l, ∀ a ∈ l, a < env.alloc n l) (env' : Env) (ho' : Spec.InOrder env')
    (hup' : ∀ n l, ∀ a ∈ l, a < env'.alloc n l) (ms : List Msg) {st : Stats}
    (hst : s.stats = st ∨ Spec.NoQuery ms) :
    transcript cfg env s ms = transcript cfg env' (Spec.started Single st s.frozen) ms := by
  obtain ⟨P, hp, hle⟩ := ho.order
  obtain ⟨P', hp', -⟩ := ho'.order
  have hq := Single.none_left hr hw
  let env1 : Env := { env with srt := insSorter }
  have hp1 : Fifo.Order env1 P := ⟨hp.clock, fun l hl => insSort_id (hl.imp fun h => hle _ _ h)⟩
  let p := s.past true
  let env2 : Env := env1.after p
  let env3 : Env := { env2 with alloc := env'.alloc, alloc_fresh := env'.alloc_fresh }
  have hp3 : Fifo.Order env3 P := ⟨fun a b hab => hp.clock _ _ (Nat.add_lt_add_right hab _), hp1.keep⟩
  have none_like : ∀ {P : Int → Int → Prop} {e : Env} {n : Nat} {q : Single}, q = QueueManager.empty →
      Fifo.Like P e n q QueueManager.empty := fun h => by
    subst h; exact ⟨rfl, rfl, rfl, List.Pairwise.nil, fun _ h => absurd h List.not_mem_nil⟩
  have e1 := transcript_sim (Fifo.sim (env' := env) hp rfl) cfg ms (s := s) (none_like hq)
  have e2 := transcript_sim (Fifo.sim (env := env1) (env' := env) hp1 rfl) cfg ms (s := s) (none_like hq)
  have e3 : transcript cfg env1 s ms = transcript cfg env2 (Spec.started Single st s.frozen) ms :=
    hr.anew_transcript (env0 := env1) insSorter_blind hw hq ms hst true
  have e4 : transcript cfg env2 (Spec.started Single st s.frozen) ms =
      transcript cfg env3 (Spec.started Single st s.frozen) ms :=
    transcript_layout cfg (Q := Single) (env := env2) (env' := env3)
      (show SameOrder False env2 env3 from
        ⟨rfl, rfl, .inl ⟨id, fun _ _ _ h => hup _ _ _ (mem_withKept h), hup'⟩⟩) ms
      (LayoutEq.started _ _)
  have e5 := transcript_sim (Fifo.sim (env := env3) (env' := env') hp3 rfl) cfg ms
    (s := Spec.started Single st s.frozen) (none_like rfl)
  have e6 := transcript_sim (Fifo.sim (env := env') (env' := env') hp' rfl) cfg ms
    (s := Spec.started Single st s.frozen) (none_like rfl)
  rw [← e1, e2, e3, e4, ← e5, e6]

/-- **C111** (single-queue manager).  As long as arrival times tell the order of arrival and later
    worker objects get higher addresses, the broker without workers goes on like any broker that was
    just started with the same statistics, frozen or not.  Missing: other orders of addresses, for
    which `C111_single_false` shows that the claim is false, and clocks that go back.
    `C111_single_env` holds for all of them. -/
theorem C111_single_partial {cfg : HConfig} {env : Env} {h : List (Tr Single)} {s : HState Single}
    (hr : Run cfg env h s) (hw : s.workers = []) (ho : Spec.InOrder env)
    (hup : ∀ n l, ∀ a ∈ l, a < env.alloc n l) (env' : Env) (ho' : Spec.InOrder env')
    (hup' : ∀ n l, ∀ a ∈ l, a < env'.alloc n l) (ms : List Msg) :
    transcript cfg env s ms = transcript cfg env' (Spec.started Single s.stats s.frozen) ms :=
  single_anew hr hw ho hup env' ho' hup' ms (.inl rfl)

/-- **C111** (single-queue manager).  If it is not frozen and nobody asks for statistics, it cannot
    be told apart from a new one.  Missing: as in `C111_single_partial`. -/
theorem C111_single_new_partial {cfg : HConfig} {env : Env} {h : List (Tr Single)}
    {s : HState Single} (hr : Run cfg env h s) (hw : s.workers = []) (hf : s.frozen = false)
    (ho : Spec.InOrder env) (hup : ∀ n l, ∀ a ∈ l, a < env.alloc n l) (env' : Env)
    (ho' : Spec.InOrder env') (hup' : ∀ n l, ∀ a ∈ l, a < env'.alloc n l) {ms : List Msg}
    (hq : Spec.NoQuery ms) : transcript cfg env s ms = observed Single cfg env' ms := by
  rw [single_anew hr hw ho hup env' ho' hup' ms (.inr hq), hf]
  rfl

/-- The full claim for the single-queue manager. -/
def C111_singleClaim : Prop :=
  ∀ (cfg : HConfig) (env : Env) (h : List (Tr Single)) (s : HState Single), Run cfg env h s →
    s.workers = [] → s.frozen = false → ∀ ms, Spec.NoQuery ms →
      transcript cfg env s ms = observed Single cfg env ms

/-! ## Concrete cases -/

/-- A worker registers, does a job, gets another one and a third one waits; then the worker is not
    heard of. -/
def oneGone : List Msg :=
  [fromW "x" ["init", "g"], fromW "x" ["ping"], fromC "c" ["eval", "j1", "hwgroup=g", ""],
   fromC "c" ["eval", "j2", "hwgroup=g", ""], fromC "c" ["eval", "j3", "hwgroup=g", ""],
   fromW "x" ["done", "j1", "OK"], tick "1001", tick "1001", tick "1001", tick "1001"]

/-- `C111_multi`, `C111_multi_new`: the worker is gone, the jobs were given up, and the timer of the
    worker is still kept; two other workers come and one of them gets a job. -/
example : ∃ h s, Run (Q := Multi) cfg0 env0 h s ∧ h.map (·.msg) = oneGone ∧ s.workers = [] ∧
    s.frozen = false ∧ s.timers.length = 1 ∧ s.nextRid = 4 ∧ Spec.NoQuery twoWorkersOneJob ∧
    s.stats.evaluated = 1 ∧
    transcript cfg0 env0 s twoWorkersOneJob = observed Multi cfg0 envDown twoWorkersOneJob := by
  obtain ⟨h, s, hr, hd⟩ := exists_run (Q := Multi) (cfg := cfg0) (env := env0) oneGone
    (fun h s => decide (h.map (·.msg) = oneGone ∧ s.workers = [] ∧ s.frozen = false ∧
      s.timers.length = 1 ∧ s.nextRid = 4 ∧ s.stats.evaluated = 1)) (by decide +kernel)
  have hd := of_decide_eq_true hd
  have hq : Spec.NoQuery twoWorkersOneJob := by decide
  exact ⟨h, s, hr, hd.1, hd.2.1, hd.2.2.1, hd.2.2.2.1, hd.2.2.2.2.1, hq, hd.2.2.2.2.2,
    C111_multi_new hr hd.2.1 hd.2.2.1 envDown hq⟩

/-- `C111_single_env`, `C111_single_partial`, `C111_single_new_partial`. -/
example : ∃ h s, Run (Q := Single) cfg0 env0 h s ∧ h.map (·.msg) = oneGone ∧ s.workers = [] ∧
    s.frozen = false ∧ s.timers.length = 1 ∧ s.nextRid = 4 ∧ Spec.NoQuery twoWorkersOneJob ∧
    s.stats.evaluated = 1 ∧
    transcript cfg0 env0 s twoWorkersOneJob = observed Single cfg0 envGaps twoWorkersOneJob := by
  obtain ⟨h, s, hr, hd⟩ := exists_run (Q := Single) (cfg := cfg0) (env := env0) oneGone
    (fun h s => decide (h.map (·.msg) = oneGone ∧ s.workers = [] ∧ s.frozen = false ∧
      s.timers.length = 1 ∧ s.nextRid = 4 ∧ s.stats.evaluated = 1)) (by decide +kernel)
  have hd := of_decide_eq_true hd
  have hq : Spec.NoQuery twoWorkersOneJob := by decide
  exact ⟨h, s, hr, hd.1, hd.2.1, hd.2.2.1, hd.2.2.2.1, hd.2.2.2.2.1, hq, hd.2.2.2.2.2,
    C111_single_new_partial hr hd.2.1 hd.2.2.1 inOrder_env0 (fun _ _ _ h => lt_succMax h) envGaps
      (.inl fun m n h => by show (m : Int) < n; omega)
      (fun _ _ _ h => by have := lt_succMax h; show _ < succMax _ + _ + _; omega) hq⟩

/-- The third worker object gets a low address. -/
def envThird : Env where
  alloc := fun n l => if n = 2 ∧ 0 ∉ l then 0 else succMax l + 1
  alloc_fresh := fun n l => by
    split
    · rename_i h; exact h.2
    · exact fun h => by have := lt_succMax h; omega
  clock := env0.clock
  srt := env0.srt

/-- The worker leaves without work. -/
def oneWent : List Msg :=
  [fromW "x" ["init", "g"], fromW "x" ["ping"], tick "1001", tick "1001", tick "1001", tick "1001"]

/-- **C111** is false of the single-queue manager with an allocator that hands out addresses in
    another order: which of two workers gets the job depends on how many there were before. -/
theorem C111_single_false : ¬ C111_singleClaim := by
  intro h
  obtain ⟨h', s, hr, hd⟩ := exists_run (Q := Single) (cfg := cfg0) (env := envThird) oneWent
    (fun _ s => decide (s.workers = [] ∧ s.frozen = false ∧
      transcript cfg0 envThird s twoWorkersOneJob ≠ observed Single cfg0 envThird twoWorkersOneJob))
    (by decide +kernel)
  have hd := of_decide_eq_true hd
  exact hd.2.2 (h cfg0 envThird h' s hr hd.1 hd.2.1 twoWorkersOneJob (by decide))

end Broker
