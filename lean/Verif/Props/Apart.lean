import Verif.Proof.ApartFifo
import Verif.Proof.ApartRota
import Verif.Proof.ApartRun
import Verif.Props.Fifo
import Verif.Props.Layout
import Verif.Props.Matching
import Verif.Props.Rota
import Verif.Spec.Exec

/-!
# C92: groups of workers do not disturb each other

The theorems compare an execution with all messages to one without the messages of the other group.
-/

namespace Broker

variable {mine : String → Bool} {asks : Msg → Bool} {ms : List Msg}

theorem observed_length {Q : Type} [QueueManager Q] {cfg : HConfig} {env : Env}
    (hok : ∀ x ∈ observed Q cfg env ms, x.2 = none) : (observed Q cfg env ms).length = ms.length :=
  transcript_length cfg env ms _ hok

theorem unseen_worker {i : String} (hi : mine i = true) {theirs : String → Prop} {m : Msg}
    (h : Spec.Unseen mine theirs m) : decide (m.key = "workers" ∧ m.identity = i) = false := by
  refine decide_eq_false ?_
  rintro ⟨hk, rfl⟩
  rw [h.1 hk] at hi
  cases hi

theorem unseen_job {j : String} {theirs : String → Prop} (hj : ¬ theirs j) {m : Msg}
    (h : Spec.Unseen mine theirs m) :
    decide (m.key = "status_notifier" ∧ m.data.take 4 = ["type", "job-status", "id", j]) = false := by
  refine decide_eq_false ?_
  rintro ⟨hk, hd⟩
  exact hj (h.2 hk j hd)

/-- **C92** (multi-queue manager).  If no worker can process requests of the other group, then the
    broker does the same for our group as it would without the other group: it does not fail, answers
    each of our messages in the same way, and what it does for the other group does not concern us.
    Neither addresses nor the clock nor the sorting algorithm play a role. -/
theorem C92_multi (cfg : HConfig) (env env' : Env) (ha : Spec.Apart mine asks ms)
    (hok : ∀ x ∈ observed Multi cfg env ms, x.2 = none) :
    Spec.SameForUs mine asks ms (observed Multi cfg env ms)
      (observed Multi cfg env' (ms.filter (Spec.ours mine asks))) := by
  rw [C87_rota] at hok ⊢
  rw [C87_rota]
  exact same_for_us (Q := Rota) cfg (env := env) (env' := env') trivial ha hok

/-- **C92** (multi-queue manager).  Each of our workers receives the same messages with and without the
    other group. -/
theorem C92_multi_workers (cfg : HConfig) (env env' : Env) (ha : Spec.Apart mine asks ms)
    (hok : ∀ x ∈ observed Multi cfg env ms, x.2 = none) (i : String) (hi : mine i = true) :
    Spec.sentTo i (observed Multi cfg env' (ms.filter (Spec.ours mine asks))) =
      Spec.sentTo i (observed Multi cfg env ms) :=
  same_filter (C92_multi cfg env env' ha hok) (observed_length hok) _ fun _ h => unseen_worker hi h

/-- **C92** (multi-queue manager).  The frontend is told the same about the results of our jobs with and
    without the other group. -/
theorem C92_multi_jobs (cfg : HConfig) (env env' : Env) (ha : Spec.Apart mine asks ms)
    (hok : ∀ x ∈ observed Multi cfg env ms, x.2 = none) (j : String) (hj : ¬ Spec.Theirs mine asks ms j) :
    Spec.toldAbout j (observed Multi cfg env' (ms.filter (Spec.ours mine asks))) =
      Spec.toldAbout j (observed Multi cfg env ms) :=
  same_filter (C92_multi cfg env env' ha hok) (observed_length hok) _ fun _ h => unseen_job hj h

/-- The full claim for the single-queue manager, with the same environment in both executions. -/
def C92_singleClaim : Prop :=
  ∀ (mine : String → Bool) (asks : Msg → Bool) (ms : List Msg) (cfg : HConfig) (env : Env),
    Spec.Apart mine asks ms → (∀ x ∈ observed Single cfg env ms, x.2 = none) →
    Spec.SameForUs mine asks ms (observed Single cfg env ms)
      (observed Single cfg env (ms.filter (Spec.ours mine asks)))

/-- **C92**, single-queue manager.  The same as `C92_multi` if arrival times tell the order of arrival and
    later worker objects get higher addresses, in both executions.  Missing: other clocks and other
    orders of addresses; `C92_single_clock_false` and `C92_single_alloc_false` show that the claim is
    false without either of the conditions. -/
theorem C92_single_partial (cfg : HConfig) (env env' : Env) (ha : Spec.Apart mine asks ms)
    (ho : Spec.InOrder env) (ho' : Spec.InOrder env')
    (hup : ∀ n l, ∀ a ∈ l, a < env.alloc n l) (hup' : ∀ n l, ∀ a ∈ l, a < env'.alloc n l)
    (hok : ∀ x ∈ observed Single cfg env ms, x.2 = none) :
    Spec.SameForUs mine asks ms (observed Single cfg env ms)
      (observed Single cfg env' (ms.filter (Spec.ours mine asks))) := by
  rw [C85_fifo _ _ _ ho] at hok ⊢
  rw [C85_fifo _ _ _ ho']
  exact same_for_us (Q := Fifo) cfg (env := env) (env' := env') ⟨hup, hup'⟩ ha hok

/-- **C92**, single-queue manager: what each of our workers receives, under the conditions of
    `C92_single_partial`. -/
theorem C92_single_workers_partial (cfg : HConfig) (env env' : Env) (ha : Spec.Apart mine asks ms)
    (ho : Spec.InOrder env) (ho' : Spec.InOrder env')
    (hup : ∀ n l, ∀ a ∈ l, a < env.alloc n l) (hup' : ∀ n l, ∀ a ∈ l, a < env'.alloc n l)
    (hok : ∀ x ∈ observed Single cfg env ms, x.2 = none) (i : String) (hi : mine i = true) :
    Spec.sentTo i (observed Single cfg env' (ms.filter (Spec.ours mine asks))) =
      Spec.sentTo i (observed Single cfg env ms) :=
  same_filter (C92_single_partial cfg env env' ha ho ho' hup hup' hok) (observed_length hok) _
    fun _ h => unseen_worker hi h

/-- **C92**, single-queue manager: what the frontend is told about the results of our jobs, under the
    conditions of `C92_single_partial`. -/
theorem C92_single_jobs_partial (cfg : HConfig) (env env' : Env) (ha : Spec.Apart mine asks ms)
    (ho : Spec.InOrder env) (ho' : Spec.InOrder env')
    (hup : ∀ n l, ∀ a ∈ l, a < env.alloc n l) (hup' : ∀ n l, ∀ a ∈ l, a < env'.alloc n l)
    (hok : ∀ x ∈ observed Single cfg env ms, x.2 = none) (j : String) (hj : ¬ Spec.Theirs mine asks ms j) :
    Spec.toldAbout j (observed Single cfg env' (ms.filter (Spec.ours mine asks))) =
      Spec.toldAbout j (observed Single cfg env ms) :=
  same_filter (C92_single_partial cfg env env' ha ho ho' hup hup' hok) (observed_length hok) _
    fun _ h => unseen_job hj h

/-- **C92.** Groups according to hardware groups: the workers of a hardware group are all ours or all
    theirs, and each request names hardware groups of one side only. -/
theorem C92_groups (side : String → Bool)
    (hw : ∀ i g rest, (⟨"workers", i, "init" :: g :: rest⟩ : Msg) ∈ ms → mine i = side g)
    (hd : ∀ i g rest, (⟨"workers", i, "init" :: g :: rest⟩ : Msg) ∈ ms →
      ∀ d ∈ Spec.headerFrames rest, Spec.frameKey d ≠ "hwgroup")
    (hr : ∀ c j fs, (⟨"clients", c, "eval" :: j :: fs⟩ : Msg) ∈ ms → ∃ f ∈ Spec.headerFrames fs,
      Spec.frameKey f = "hwgroup" ∧ ∀ g, Spec.IsAlternative g (Spec.frameValue f) →
        side g = asks ⟨"clients", c, "eval" :: j :: fs⟩) : Spec.Apart mine asks ms := by
  intro i g rest hi c j fs hc hne hcap
  obtain ⟨f, hf, hk, hg⟩ := hr c j fs hc
  have hm : Spec.isMeta f = false := by
    unfold Spec.isMeta
    rw [hk]
    decide
  rcases hcap f hf hm with ⟨-, h⟩ | ⟨h, -⟩ | ⟨-, d, hdm, hdk, -⟩
  · exact hne ((hw i g rest hi).trans (hg g h))
  · rw [hk] at h
    exact absurd h (by decide)
  · rw [hk] at hdk
    exact hd i g rest hi d hdm hdk

/-! ## Concrete cases -/

/-- Decides `Spec.Apart` in concrete cases. -/
def checkApart (mine : String → Bool) (asks : Msg → Bool) (ms : List Msg) : Bool :=
  ms.all fun mi => ms.all fun me =>
    match mi, me with
    | ⟨"workers", i, "init" :: g :: rest⟩, ⟨"clients", c, "eval" :: j :: fs⟩ =>
      mine i == asks ⟨"clients", c, "eval" :: j :: fs⟩ ||
        match Worker.create 0 i g (initHeaders rest []).1 "", evalHeaders fs [] [] with
        | .ok w, .ok (some x) => decide (w.checkHeaders x.1 ≠ .ok true)
        | _, _ => false
    | _, _ => true

theorem apart_of_check (h : checkApart mine asks ms = true) : Spec.Apart mine asks ms := by
  intro i g rest hi c j fs hc hne hcap
  have := List.all_eq_true.1 (List.all_eq_true.1 h _ hi) _ hc
  simp only [Bool.or_eq_true, beq_iff_eq] at this
  have := this.resolve_left hne
  cases hw : Worker.create 0 i g (initHeaders rest []).1 "" with
  | error e => rw [hw] at this; cases this
  | ok w =>
    rw [hw] at this
    match he : evalHeaders fs [] [] with
    | .error e => rw [he] at this; cases this
    | .ok none => rw [he] at this; cases this
    | .ok (some (hs, md, ex)) =>
      rw [he] at this
      exact of_decide_eq_true this ((can_iff hw he).2 hcap)

/-- Two hardware groups.  The worker `x` of the other group gets two jobs, says that it is processing
    another one, and dies; its jobs are given up.  Our worker `a` gets two jobs and is done with the
    first one. -/
def twoGroups : List Msg :=
  [fromW "x" ["init", "h", "", "current_job=z0"], fromW "x" ["ping"], fromW "a" ["init", "g"],
   fromC "c" ["eval", "z1", "hwgroup=h", "", "u"], fromC "c" ["eval", "j1", "hwgroup=g", "", "u"],
   fromC "c" ["eval", "z2", "hwgroup=h", "", "u"], fromC "c" ["eval", "j2", "hwgroup=g", "", "u"],
   fromC "c" ["get-runtime-stats"]] ++
  (List.replicate 4 [fromW "a" ["ping"], tick "1001"]).flatten ++
  [fromW "a" ["done", "j1", "OK"]]

def isA (i : String) : Bool := i == "a"
def isJ (m : Msg) : Bool := m.data.contains "hwgroup=g"

/-- `C92_multi`, `C92_multi_workers`, `C92_multi_jobs`: the hypotheses hold, and something happens. -/
example : Spec.Apart isA isJ twoGroups ∧ (∀ x ∈ observed Multi cfg0 env0 twoGroups, x.2 = none) ∧
    (twoGroups.filter (Spec.ours isA isJ)).length = 12 ∧ twoGroups.length = 17 ∧
    (Spec.sentTo "a" (observed Multi cfg0 env0 twoGroups)).map (·.data) =
      [["eval", "j1", "u"], ["pong"], ["pong"], ["pong"], ["pong"], ["eval", "j2", "u"]] ∧
    Spec.toldAbout "j1" (observed Multi cfg0 env0 twoGroups) =
      [⟨"status_notifier", "", ["type", "job-status", "id", "j1", "status", "OK"]⟩] ∧
    (Spec.toldAbout "z0" (observed Multi cfg0 env0 twoGroups)).length = 1 :=
  ⟨apart_of_check (by decide +kernel), by decide +kernel, by decide +kernel, by decide +kernel,
    by decide +kernel, by decide +kernel, by decide +kernel⟩

/-- `C92_groups`: a worker in the hardware group `g`, another one in `h`, and a request for `g` or `k`. -/
example : Spec.Apart isA (fun _ => true) [fromW "a" ["init", "g", "env=c"], fromW "x" ["init", "h"],
    fromC "c" ["eval", "j", "env=c", "hwgroup=g|k", ""]] := by
  refine C92_groups (fun g => g == "g" || g == "k") ?_ ?_ ?_
  · intro i g rest h
    simp only [fromW, fromC, List.mem_cons, Msg.mk.injEq, List.cons.injEq, List.not_mem_nil, or_false] at h
    rcases h with ⟨-, rfl, -, rfl, -⟩ | ⟨-, rfl, -, rfl, -⟩ | ⟨h, -⟩
    · decide
    · decide
    · exact absurd h (by decide)
  · intro i g rest h
    simp only [fromW, fromC, List.mem_cons, Msg.mk.injEq, List.cons.injEq, List.not_mem_nil, or_false] at h
    rcases h with ⟨-, rfl, -, rfl, rfl⟩ | ⟨-, rfl, -, rfl, rfl⟩ | ⟨h, -⟩
    · decide
    · decide
    · exact absurd h (by decide)
  · intro c j fs h
    simp only [fromW, fromC, List.mem_cons, Msg.mk.injEq, List.cons.injEq, List.not_mem_nil, or_false] at h
    rcases h with ⟨h, -⟩ | ⟨h, -⟩ | ⟨-, rfl, -, rfl, rfl⟩
    · exact absurd h (by decide)
    · exact absurd h (by decide)
    · refine ⟨"hwgroup=g|k", by decide, by decide, ?_⟩
      intro g hg
      have e : Spec.frameValue "hwgroup=g|k" = "|".intercalate ["g", "k"] := by decide
      rw [e, C25_alternatives] at hg
      · simpa using hg
      · simp

/-- The same for the single-queue manager. -/
example : (∀ x ∈ observed Single cfg0 env0 twoGroups, x.2 = none) ∧
    (Spec.sentTo "a" (observed Single cfg0 env0 twoGroups)).map (·.data) =
      [["eval", "j1", "u"], ["pong"], ["pong"], ["pong"], ["pong"], ["eval", "j2", "u"]] :=
  ⟨by decide +kernel, by decide +kernel⟩

/-- A worker of the other group, then two of ours and one job. -/
def strangerFirst : List Msg :=
  [fromW "x" ["init", "h"], fromW "a1" ["init", "g"], fromW "a2" ["init", "g"],
   fromC "c" ["eval", "j", "hwgroup=g", "", "u"]]

def notX (i : String) : Bool := i != "x"

/-- The first three addresses are 1, 9 and 5. -/
def envJumpy : Env where
  alloc := fun n l => if [1, 9, 5].getD n 0 ∈ l then succMax l else [1, 9, 5].getD n 0
  alloc_fresh := fun n l => by
    split
    · intro h; exact Nat.lt_irrefl _ (lt_succMax h)
    · assumption
  clock := fun n => n
  srt := insSorter

/-- **C92** is false of the single-queue manager without the condition about addresses: the worker of the
    other group takes an address, and another of our workers gets the job. -/
theorem C92_single_alloc_false : ¬ (∀ (mine : String → Bool) (asks : Msg → Bool) (ms : List Msg)
    (cfg : HConfig) (env : Env), Spec.InOrder env →
    Spec.Apart mine asks ms → (∀ x ∈ observed Single cfg env ms, x.2 = none) →
    Spec.SameForUs mine asks ms (observed Single cfg env ms)
      (observed Single cfg env (ms.filter (Spec.ours mine asks)))) := by
  intro h
  have hok : ∀ x ∈ observed Single cfg0 envJumpy strangerFirst, x.2 = none := by decide +kernel
  have h1 := h notX isJ strangerFirst cfg0 envJumpy (.inl fun m n h => by show (m : Int) < n; omega)
    (apart_of_check (by decide +kernel)) hok
  have h2 := same_filter h1 (observed_length hok) _ fun _ h => unseen_worker (i := "a1") (by decide) h
  revert h2
  decide +kernel

/-- Three jobs of ours after one of the other group. -/
def strangersJobFirst : List Msg :=
  [fromW "x" ["init", "h"], fromW "a" ["init", "g"], fromC "c" ["eval", "z", "hwgroup=h", "", "u"],
   fromC "c" ["eval", "j1", "hwgroup=g", "", "u"], fromC "c" ["eval", "j2", "hwgroup=g", "", "u"],
   fromC "c" ["eval", "j3", "hwgroup=g", "", "u"], fromW "a" ["done", "j1", "OK"]]

/-- The clock is set back once. -/
def envSetBack : Env := { env0 with clock := fun n => [0, 1, 3, 2].getD n 9 }

/-- **C92** is false of the single-queue manager without the condition about the clock: the job of the other
    group takes a reading, and our jobs are processed in another order. -/
theorem C92_single_clock_false : ¬ (∀ (mine : String → Bool) (asks : Msg → Bool) (ms : List Msg)
    (cfg : HConfig) (env : Env), (∀ n l, ∀ a ∈ l, a < env.alloc n l) →
    Spec.Apart mine asks ms → (∀ x ∈ observed Single cfg env ms, x.2 = none) →
    Spec.SameForUs mine asks ms (observed Single cfg env ms)
      (observed Single cfg env (ms.filter (Spec.ours mine asks)))) := by
  intro h
  have hok : ∀ x ∈ observed Single cfg0 envSetBack strangersJobFirst, x.2 = none := by decide +kernel
  have h1 := h isA isJ strangersJobFirst cfg0 envSetBack (fun _ _ _ h => lt_succMax h)
    (apart_of_check (by decide +kernel)) hok
  have h2 := same_filter h1 (observed_length hok) _ fun _ h => unseen_worker (i := "a") (by decide) h
  revert h2
  decide +kernel

/-- **C92** is false of the single-queue manager in general. -/
theorem C92_single_false : ¬ C92_singleClaim := fun h =>
  C92_single_alloc_false fun mine asks ms cfg env _ => h mine asks ms cfg env

end Broker
