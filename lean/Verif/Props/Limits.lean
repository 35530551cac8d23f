import Verif.Proof.Patience
import Verif.Spec.Exec
import Verif.Props.Volume
import Verif.Model.Single
import Verif.Model.Multi

/-!
# C117: the limits are observed only when they are reached
-/

namespace Broker

open QueueManager Spec

variable {Q : Type} [QueueManager Q] [LawfulQM Q]

/-- **C117.** Whatever the maximum liveness, the ping interval and the number of failures allowed
    are: two brokers of which neither removes a worker, nor gives up a job because it failed too
    often, answer the same messages in the same way and end in the same way. -/
theorem C117_limits (a b : HConfig) (env : Env) (ms : List Msg)
    (ha : Unreached a env (HState.init Q) ms) (hb : Unreached b env (HState.init Q) ms) :
    observed Q a env ms = observed Q b env ms :=
  unreached_same HInv.init HInv.init rfl ha hb

/-- **C117, more patience.** If no limit is reached, raising the limits makes no difference: then
    no limit is reached either and everybody is told the same.  Nothing is assumed about the times
    reported by the timer. -/
theorem C117_patient {a b : HConfig} (h : MorePatient a b) (env : Env) (ms : List Msg)
    (ha : Unreached a env (HState.init Q) ms) :
    Unreached b env (HState.init Q) ms ∧ observed Q a env ms = observed Q b env ms :=
  patient_same h HInv.init HInv.init rfl (by intro w hw; cases hw) ha

/-! ## Examples -/

/-- The text of the message begins like that of a job that is given up. -/
def looksGivenUp (o : Msg) : Bool :=
  ((o.data.getLast?.getD "").toList.take 7) == ['J', 'o', 'b', ' ', 'w', 'a', 's']

theorem looksGivenUp_of {o : Msg} (h : GivenUp o) : looksGivenUp o = true := by
  obtain ⟨_, j, n, t, hd⟩ := h
  unfold looksGivenUp
  rw [hd]
  simp [String.toList_append]

/-- `Unreached` as a computation. -/
def unreachedB (cfg : HConfig) (env : Env) : HState Q → List Msg → Bool
  | _, [] => true
  | s, m :: ms =>
    match step cfg env m s with
    | .ok _ t => s.workers.all (fun w => decide (w ∈ t.workers)) && t.outs.all (! looksGivenUp ·) &&
        unreachedB cfg env t ms
    | .error _ t => s.workers.all (fun w => decide (w ∈ t.workers)) && t.outs.all (! looksGivenUp ·)

omit [LawfulQM Q] in
theorem unreached_of {cfg : HConfig} {env : Env} : ∀ {ms : List Msg} {s : HState Q},
    unreachedB cfg env s ms = true → Unreached cfg env s ms
  | [], _, _ => trivial
  | m :: ms, s, h => by
    unfold unreachedB at h
    unfold Unreached
    have hg : ∀ l : List Msg, l.all (! looksGivenUp ·) = true → ∀ o ∈ l, ¬ GivenUp o := by
      intro l hl o ho hg
      have := List.all_eq_true.1 hl o ho
      rw [looksGivenUp_of hg] at this
      cases this
    have hw : ∀ l l' : List Worker, l.all (fun w => decide (w ∈ l')) = true → ∀ w ∈ l, w ∈ l' :=
      fun l l' hl w hx => of_decide_eq_true (List.all_eq_true.1 hl w hx)
    cases hs : step cfg env m s with
    | ok u t =>
      rw [hs] at h
      simp only [Bool.and_eq_true] at h
      exact ⟨hw _ _ h.1.1, hg _ h.1.2, unreached_of h.2⟩
    | error e t =>
      rw [hs] at h
      simp only [Bool.and_eq_true] at h
      exact ⟨hw _ _ h.1, hg _ h.2⟩

/-- Two lives, two failures, a second between pings. -/
def cfgStrict : HConfig := ⟨2, by decide, 2, by decide, 1000⟩

/-- Nine lives, seven failures, five seconds between pings. -/
def cfgLenient : HConfig := ⟨9, by decide, 7, by decide, 5000⟩

/-- Two workers; a worker is silent for a while; a job fails and is tried again. -/
def closeCall : List Msg :=
  [fromW "w" ["init", "g", "env=c", "threads=2"], fromW "w" ["ping"],
   fromC "c" ["eval", "J", "env=c", "", "x"], fromC "c" ["eval", "K", "env=c", "", "x"],
   tick "1001", fromW "w" ["done", "J", "INTERNAL_ERROR", "oops"], fromW "v" ["init", "g", "env=c"],
   tick "-500", tick "1600", fromW "v" ["ping"], fromW "w" ["done", "K", "OK"], tick "900",
   fromC "a" ["get-runtime-stats"]]

example : MorePatient cfgStrict cfgLenient := ⟨by decide, by decide, by decide, by decide⟩
example : Unreached cfgStrict env0 (HState.init Single) closeCall := unreached_of (by decide +kernel)
example : Unreached cfgStrict env0 (HState.init Multi) closeCall := unreached_of (by decide +kernel)

/-- One more tick in place of the worker's message would have removed it. -/
example : (observed Single cfgStrict env0 (closeCall.take 5 ++ [tick "1001", fromW "w" ["ping"]])).getLast?
    = some ([⟨"workers", "w", ["intro"]⟩], none) := by decide +kernel

/-- The job that failed is given out again. -/
example : ((observed Single cfgStrict env0 closeCall).flatMap (·.1)).filter (·.key = "workers") =
    [⟨"workers", "w", ["pong"]⟩, ⟨"workers", "w", ["eval", "J", "x"]⟩,
     ⟨"workers", "w", ["eval", "J", "x"]⟩, ⟨"workers", "v", ["eval", "K", "x"]⟩,
     ⟨"workers", "v", ["pong"]⟩] := by decide +kernel

/-- **C117, a limit of zero is no limit.** With a maximum liveness of zero the counter wraps around,
    so that a broker with a larger maximum is less patient. -/
theorem C117_positive_needed : ∃ (a b : HConfig) (ms : List Msg), a.maxLiveness ≤ b.maxLiveness ∧
    a.pingInterval = b.pingInterval ∧ a.maxFailures = b.maxFailures ∧
    Unreached a env0 (HState.init Single) ms ∧
    observed Single a env0 ms ≠ observed Single b env0 ms :=
  ⟨⟨0, by decide, 3, by decide, 1000⟩, ⟨1, by decide, 3, by decide, 1000⟩,
    [fromW "w" ["init", "g", "env=c"], fromW "w" ["ping"], tick "1001", fromW "w" ["ping"]],
    by decide, rfl, rfl, unreached_of (by decide +kernel), by decide +kernel⟩

/-- **C117, limits that are reached are observed**: the number of failures and the maximum
    liveness. -/
theorem C117_reached : ∃ (a b : HConfig) (ms ms' : List Msg), MorePatient a b ∧
    observed Multi a env0 ms ≠ observed Multi b env0 ms ∧
    observed Multi a env0 ms' ≠ observed Multi b env0 ms' :=
  ⟨cfgStrict, cfgLenient,
    [fromW "w" ["init", "g", "env=c"], fromC "c" ["eval", "J", "env=c", "", "x"],
     fromW "w" ["done", "J", "INTERNAL_ERROR", "x"], fromW "w" ["done", "J", "INTERNAL_ERROR", "y"]],
    [fromW "w" ["init", "g", "env=c"], fromW "w" ["ping"], tick "1001", tick "1001",
     fromW "w" ["ping"]],
    ⟨by decide, by decide, by decide, by decide⟩, by decide +kernel, by decide +kernel⟩

end Broker
