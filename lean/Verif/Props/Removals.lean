import Verif.Proof.Removals
import Verif.Spec.Exec
import Verif.Props.Volume
import Verif.Model.Single
import Verif.Model.Multi

/-!
# C118: time is observed only through removals
-/

namespace Broker

open QueueManager Spec

variable {Q : Type} [QueueManager Q] [LawfulQM Q]

/-- **C118.** Whatever times the timer reports, and whatever the ping interval and the maximum
    liveness are: two brokers that get the same messages otherwise, that allow as many failures and
    that have the same workers registered after every message send the same messages in the same
    order and end in the same way. -/
theorem C118_removals {a b : HConfig} (h : a.maxFailures = b.maxFailures) (env : Env)
    {ms ms' : List Msg} (hm : List.Forall₂ SameButTime ms ms')
    (hr : SameRemovals a b env (HState.init Q) (HState.init Q) ms ms') :
    observed Q a env ms = observed Q b env ms' :=
  removals_same h HInv.init HInv.init rfl hm hr

/-! ## Examples -/

/-- `SameRemovals` as a computation. -/
def sameRemovalsB (a b : HConfig) (env : Env) : HState Q → HState Q → List Msg → List Msg → Bool
  | s, t, m :: ms, m' :: ms' =>
    match step a env m s, step b env m' t with
    | .ok _ s', .ok _ t' => decide (s'.workers = t'.workers) && sameRemovalsB a b env s' t' ms ms'
    | .ok _ s', .error _ t' => decide (s'.workers = t'.workers)
    | .error _ s', .ok _ t' => decide (s'.workers = t'.workers)
    | .error _ s', .error _ t' => decide (s'.workers = t'.workers)
  | _, _, _, _ => true

omit [LawfulQM Q] in
theorem sameRemovals_of {a b : HConfig} {env : Env} : ∀ {ms ms' : List Msg} {s t : HState Q},
    sameRemovalsB a b env s t ms ms' = true → SameRemovals a b env s t ms ms'
  | [], _, _, _, _ => by unfold SameRemovals; trivial
  | _ :: _, [], _, _, _ => by unfold SameRemovals; trivial
  | m :: ms, m' :: ms', s, t, h => by
    unfold sameRemovalsB at h
    unfold SameRemovals
    revert h
    cases step a env m s <;> cases step b env m' t <;> intro h
    · simp only [Bool.and_eq_true, decide_eq_true_eq] at h
      exact ⟨h.1, sameRemovals_of h.2⟩
    · simpa using h
    · simpa using h
    · simpa using h

/-- Two lives and a second between pings. -/
def cfgTwoLives : HConfig := ⟨2, by decide, 3, by decide, 1000⟩

/-- One life and five seconds between pings. -/
def cfgOneLife : HConfig := ⟨1, by decide, 3, by decide, 5000⟩

/-- A worker with a job falls silent, another one takes over; the ticks report the times given. -/
def takeOver (x y z : String) : List Msg :=
  [fromW "w" ["init", "g", "env=c"], fromW "w" ["ping"], fromC "c" ["eval", "J", "env=c", "", "x"],
   tick x, fromW "v" ["init", "g", "env=c"], fromW "v" ["ping"], tick y, fromW "w" ["ping"],
   fromW "v" ["done", "J", "OK"], tick z, fromC "a" ["get-runtime-stats"]]

theorem takeOver_times (x y z x' y' z' : String) (X Y Z X' Y' Z' : Int)
    (h : IsElapsed x X ∧ IsElapsed y Y ∧ IsElapsed z Z)
    (h' : IsElapsed x' X' ∧ IsElapsed y' Y' ∧ IsElapsed z' Z') :
    List.Forall₂ SameButTime (takeOver x y z) (takeOver x' y' z') := by
  have ht : ∀ u U v V, IsElapsed u U → IsElapsed v V → SameButTime (tick u) (tick v) :=
    fun u U v V hu hv => .inr ⟨U, V, ⟨rfl, u, [], rfl, hu⟩, ⟨rfl, v, [], rfl, hv⟩⟩
  have hr : ∀ m, SameButTime m m := fun m => .inl rfl
  exact .cons (hr _) (.cons (hr _) (.cons (hr _) (.cons (ht _ _ _ _ h.1 h'.1) (.cons (hr _)
    (.cons (hr _) (.cons (ht _ _ _ _ h.2.1 h'.2.1) (.cons (hr _) (.cons (hr _)
    (.cons (ht _ _ _ _ h.2.2 h'.2.2) (.cons (hr _) .nil))))))))))

example : List.Forall₂ SameButTime (takeOver "1001" "1001" "77") (takeOver "1" "5000" "-3000") :=
  takeOver_times _ _ _ _ _ _ 1001 1001 77 1 5000 (-3000)
    ⟨(stoll_iff _ _).1 rfl, (stoll_iff _ _).1 rfl, (stoll_iff _ _).1 rfl⟩
    ⟨(stoll_iff _ _).1 rfl, (stoll_iff _ _).1 rfl, (stoll_iff _ _).1 rfl⟩

example : SameRemovals cfgTwoLives cfgOneLife env0 (HState.init Single) (HState.init Single)
    (takeOver "1001" "1001" "77") (takeOver "1" "5000" "-3000") :=
  sameRemovals_of (by decide +kernel)
example : SameRemovals cfgTwoLives cfgOneLife env0 (HState.init Multi) (HState.init Multi)
    (takeOver "1001" "1001" "77") (takeOver "1" "5000" "-3000") :=
  sameRemovals_of (by decide +kernel)

/-- The job is moved at the second tick and the silent worker has to introduce itself again. -/
example : ((observed Single cfgOneLife env0 (takeOver "1" "5000" "-3000")).flatMap (·.1)).filter
    (·.key = "workers") =
    [⟨"workers", "w", ["pong"]⟩, ⟨"workers", "w", ["eval", "J", "x"]⟩, ⟨"workers", "v", ["pong"]⟩,
     ⟨"workers", "v", ["eval", "J", "x"]⟩, ⟨"workers", "w", ["intro"]⟩] := by decide +kernel

/-- **C118, removals are observed.** If the times reported change who is removed, they can be
    observed. -/
theorem C118_time_observed : ∃ (a : HConfig) (ms ms' : List Msg),
    List.Forall₂ SameButTime ms ms' ∧ observed Single a env0 ms ≠ observed Single a env0 ms' ∧
    observed Multi a env0 ms ≠ observed Multi a env0 ms' :=
  ⟨cfgTwoLives, takeOver "1001" "1001" "77", takeOver "1" "5000" "-3000",
    takeOver_times _ _ _ _ _ _ 1001 1001 77 1 5000 (-3000)
      ⟨(stoll_iff _ _).1 rfl, (stoll_iff _ _).1 rfl, (stoll_iff _ _).1 rfl⟩
      ⟨(stoll_iff _ _).1 rfl, (stoll_iff _ _).1 rfl, (stoll_iff _ _).1 rfl⟩,
    by decide +kernel, by decide +kernel⟩

/-- **C118, failures allowed.** The number of failures allowed is observed although the same workers
    are registered all the time. -/
theorem C118_failures_needed : ∃ (a b : HConfig) (ms : List Msg),
    SameRemovals a b env0 (HState.init Single) (HState.init Single) ms ms ∧
    observed Single a env0 ms ≠ observed Single b env0 ms :=
  ⟨⟨2, by decide, 1, by decide, 1000⟩, ⟨2, by decide, 2, by decide, 1000⟩,
    [fromW "w" ["init", "g", "env=c"], fromC "c" ["eval", "J", "env=c", "", "x"],
     fromW "w" ["done", "J", "INTERNAL_ERROR", "x"]],
    sameRemovals_of (by decide +kernel), by decide +kernel⟩

end Broker
