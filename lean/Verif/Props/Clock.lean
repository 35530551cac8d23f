import Verif.Proof.Clock
import Verif.Props.Fifo

/-!
# C114: only the order of the readings of the clock matters
-/

set_option linter.unusedSectionVars false

namespace Broker

namespace Spec

/-- The clocks put any two readings in the same order. -/
def ReadAlike (env env' : Env) : Prop := ∀ i j, env.clock i < env.clock j ↔ env'.clock i < env'.clock j

/-- No two readings are equal. -/
def NoTies (env : Env) : Prop := ∀ i j, env.clock i = env.clock j → i = j

/-- The sorting algorithm does nothing with the times but compare them: if they are replaced by other
    ones in the same order, the entries come out in the same order. -/
def OnlyCompares (srt : Sorter) : Prop := ∀ (f : Int → Int) (l : List Entry),
  (∀ a ∈ l, ∀ b ∈ l, a.2 < b.2 → f a.2 < f b.2) →
    srt.sort (l.map fun e => (e.1, f e.2)) = (srt.sort l).map fun e => (e.1, f e.2)

end Spec

/-- **C114.**  If no two readings of the clock are equal, then nothing but their order can be observed,
    not even if `std::sort` works in another way. -/
theorem C114_order {env env' : Env} (ha : env'.alloc = env.alloc) (hn : Spec.NoTies env)
    (ho : Spec.ReadAlike env env') (cfg : HConfig) (ms : List Msg) :
    observed Single cfg env' ms = observed Single cfg env ms :=
  observed_sim (Stamps.sync_sim ha (Stamps.agree_order hn ho)) cfg ms

/-- **C114.**  If `std::sort` only compares, then nothing but the order of the readings can be observed,
    even if some are equal. -/
theorem C114_ties {env env' : Env} (ha : env'.alloc = env.alloc) (hs : env'.srt = env.srt)
    (hc : Spec.OnlyCompares env.srt) (ho : Spec.ReadAlike env env') (cfg : HConfig) (ms : List Msg) :
    observed Single cfg env' ms = observed Single cfg env ms := by
  classical
  let f : Int → Int := fun t => if h : ∃ i, env.clock i = t then env'.clock h.choose else 0
  have hf : ∀ n, env'.clock n = f (env.clock n) := by
    intro n
    have h : ∃ i, env.clock i = env.clock n := ⟨n, rfl⟩
    have e : f (env.clock n) = env'.clock h.choose := dif_pos h
    have h1 := h.choose_spec
    have h2 := ho n h.choose
    have h3 := ho h.choose n
    rw [e]
    omega
  refine observed_sim (Stamps.sync_sim ha (Stamps.agree_convert hf fun js => ?_)) cfg ms
  rw [hs]
  refine hc f _ fun a ha b hb hab => ?_
  obtain ⟨x, -, rfl⟩ := List.mem_map.1 ha
  obtain ⟨y, -, rfl⟩ := List.mem_map.1 hb
  show f (env.clock x.2) < f (env.clock y.2)
  rw [← hf, ← hf]
  exact (ho _ _).1 hab

/-- **C114.**  With the multi-queue manager the clock and `std::sort` cannot be observed at all. -/
theorem C114_multi {env env' : Env} (ha : env'.alloc = env.alloc) (cfg : HConfig) (ms : List Msg) :
    observed Multi cfg env' ms = observed Multi cfg env ms := observed_sim (multi_sim ha) cfg ms

/-! ## Concrete cases -/

/-- The clock is two hours fast and ticks in units of ten. -/
def envFast : Env := { env0 with clock := fun n => 10 * n + 7200000 }

/-- A clock that was set back once, by an hour. -/
def envHour : Env := { env0 with clock := fun n => if n < 2 then 2 * n + 1 else 2 * n - 3600000 }

/-- The same clock, fast, and `std::sort` works in another way. -/
def envHourFast : Env :=
  { env0 with clock := fun n => 10 * envHour.clock n + 7200000, srt := envJumps.srt }

theorem noTies_hour : Spec.NoTies envHour := by
  intro i j h
  simp only [envHour] at h
  split at h <;> split at h <;> omega

/-- A worker, and four jobs; three of them wait. -/
def clockMsgs : List Msg :=
  [fromW "a" ["init", "g"], fromC "c" ["eval", "j1", "hwgroup=g", ""],
    fromC "c" ["eval", "j2", "hwgroup=g", ""], fromC "c" ["eval", "j3", "hwgroup=g", ""],
    fromC "c" ["eval", "j4", "hwgroup=g", ""], fromW "a" ["done", "j1", "OK"]]

/-- Insertion sort only compares. -/
theorem insSorter_onlyCompares : Spec.OnlyCompares insSorter := by
  intro f l
  show (∀ a ∈ l, ∀ b ∈ l, a.2 < b.2 → f a.2 < f b.2) → insSort (l.map _) = (insSort l).map _
  have hins : ∀ (e : Entry) (l : List Entry), (∀ a ∈ e :: l, ∀ b ∈ e :: l, a.2 < b.2 → f a.2 < f b.2) →
      insEntry (e.1, f e.2) (l.map fun e => (e.1, f e.2)) = (insEntry e l).map fun e => (e.1, f e.2) := by
    intro e l
    induction l with
    | nil => intro _; rfl
    | cons x t ih =>
      intro h
      have hx : f e.2 ≤ f x.2 ↔ e.2 ≤ x.2 := by
        have h1 := h e (by simp) x (by simp)
        have h2 := h x (by simp) e (by simp)
        have h3 : e.2 = x.2 → f e.2 = f x.2 := fun h => by rw [h]
        omega
      simp only [List.map_cons, insEntry, hx]
      split
      · rfl
      · rw [List.map_cons, ih fun a ha b hb => h a (by simp at ha ⊢; tauto) b (by simp at hb ⊢; tauto)]
  induction l with
  | nil => intro _; rfl
  | cons x t ih =>
    intro h
    simp only [List.map_cons, insSort]
    rw [ih fun a ha b hb => h a (by simp [ha]) b (by simp [hb])]
    refine hins x _ fun a ha b hb => h a ?_ b ?_
    · rcases List.mem_cons.1 ha with rfl | ha
      · simp
      · exact List.mem_cons_of_mem _ ((insSort_perm t).mem_iff.1 ha)
    · rcases List.mem_cons.1 hb with rfl | hb
      · simp
      · exact List.mem_cons_of_mem _ ((insSort_perm t).mem_iff.1 hb)

/-- The hypotheses of `C114_order` and `C114_ties`: a clock that was set back, so that jobs are not
    served in the order they came. -/
example : envHourFast.alloc = envHour.alloc ∧ Spec.NoTies envHour ∧ Spec.ReadAlike envHour envHourFast ∧
    jobsGiven (observed Single cfg0 envHour clockMsgs) = [["eval", "j1"], ["eval", "j3"]] := by
  refine ⟨rfl, fun i j h => ?_, fun i j => ?_, by decide +kernel⟩
  · exact noTies_hour i j h
  · simp only [envHourFast]
    omega

/-- The readings of two clocks are in the same order, and `std::sort` only compares. -/
example : envFast.alloc = env0.alloc ∧ envFast.srt = env0.srt ∧ Spec.OnlyCompares env0.srt ∧
    Spec.ReadAlike env0 envFast := by
  refine ⟨rfl, rfl, insSorter_onlyCompares, fun i j => ?_⟩
  simp only [env0, envFast]
  omega

/-- The order of the readings does matter: if the clock is set back, jobs overtake others. -/
theorem C114_order_needed : ¬ ∀ (env env' : Env), env'.alloc = env.alloc → env'.srt = env.srt →
    Spec.NoTies env → Spec.NoTies env' → ∀ cfg ms,
      observed Single cfg env' ms = observed Single cfg env ms := by
  intro h
  have h1 := h env0 envHour rfl rfl (fun i j h => by simpa [env0] using h)
    noTies_hour cfg0 clockMsgs
  have h2 := congrArg jobsGiven h1
  revert h2
  decide +kernel

/-- With equal readings the algorithm of `std::sort` can be observed. -/
theorem C114_sort_matters : ¬ ∀ (env env' : Env), env'.alloc = env.alloc → env'.clock = env.clock →
    ∀ cfg ms, observed Single cfg env' ms = observed Single cfg env ms := by
  intro h
  have h2 := congrArg jobsGiven (h { envTies with srt := insSorter } envTies rfl rfl cfg0 clockMsgs)
  revert h2
  decide +kernel

end Broker
