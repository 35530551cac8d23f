import Verif.Proof.Units
import Verif.Spec.Exec
import Verif.Props.Volume
import Verif.Model.Single
import Verif.Model.Multi

/-!
# C119: the unit of time
-/

namespace Broker

open QueueManager Spec

variable {Q : Type} [QueueManager Q] [LawfulQM Q]

/-- **C119.** The broker has no unit of time of its own: if the ping interval and every time
    reported by the timer are given in a unit `k` times as fine, everything is answered as before,
    and the broker ends in the same way. -/
theorem C119_unit {k : Int} (hk : 0 < k) {a b : HConfig} (h : FinerUnit k a b) (env : Env)
    {ms ms' : List Msg} (hm : List.Forall₂ (Rescaled k) ms ms') :
    observed Q a env ms = observed Q b env ms' :=
  units_same hk h hm rfl rfl

/-! ## Examples -/

/-- A second between pings, in milliseconds and in microseconds. -/
def cfgMilli : HConfig := ⟨2, by decide, 3, by decide, 1000⟩
@[inherit_doc cfgMilli] def cfgMicro : HConfig := ⟨2, by decide, 3, by decide, 1000000⟩

example : FinerUnit 1000 cfgMilli cfgMicro := ⟨rfl, rfl, rfl⟩

/-- A worker with a job falls silent; a malformed tick ends the execution. -/
def silence (x y z : String) : List Msg :=
  [fromW "w" ["init", "g", "env=c"], fromW "w" ["ping"], fromC "c" ["eval", "J", "env=c", "", "x"],
   tick x, tick y, fromW "v" ["init", "g", "env=c"], tick z, fromW "w" ["ping"], tick "soon"]

theorem silence_units {k : Int} {x y z x' y' z' : String} {X Y Z : Int}
    (h : IsElapsed x X ∧ IsElapsed y Y ∧ IsElapsed z Z)
    (h' : IsElapsed x' (k * X) ∧ IsElapsed y' (k * Y) ∧ IsElapsed z' (k * Z)) :
    List.Forall₂ (Rescaled k) (silence x y z) (silence x' y' z') := by
  have ht : ∀ u U v, IsElapsed u U → IsElapsed v (k * U) → Rescaled k (tick u) (tick v) :=
    fun u U v hu hv => .inr ⟨U, ⟨rfl, u, [], rfl, hu⟩, ⟨rfl, v, [], rfl, hv⟩⟩
  have hr : ∀ m, m.key ≠ keyTimer → Rescaled k m m := fun m hm => .inl ⟨rfl, fun x hx => hm hx.1⟩
  refine .cons (hr _ (by decide)) (.cons (hr _ (by decide)) (.cons (hr _ (by decide))
    (.cons (ht _ _ _ h.1 h'.1) (.cons (ht _ _ _ h.2.1 h'.2.1) (.cons (hr _ (by decide))
    (.cons (ht _ _ _ h.2.2 h'.2.2) (.cons (hr _ (by decide)) (.cons (.inl ⟨rfl, ?_⟩) .nil))))))))
  rintro x ⟨_, f, rest, hd, hx⟩
  cases hd
  have := (stoll_iff _ _).2 hx
  revert this
  rw [show stoll "soon" = .error .invalidArgument from by decide +kernel]
  exact fun h => by cases h

example : List.Forall₂ (Rescaled 1000) (silence "600" "401" "1001")
    (silence "600000" "401000" "1001000") :=
  silence_units (X := 600) (Y := 401) (Z := 1001)
    ⟨(stoll_iff _ _).1 rfl, (stoll_iff _ _).1 rfl, (stoll_iff _ _).1 rfl⟩
    ⟨(stoll_iff _ _).1 rfl, (stoll_iff _ _).1 rfl, (stoll_iff _ _).1 rfl⟩

/-- The worker is removed and the job moved at the third tick. -/
example : (observed Multi cfgMicro env0 (silence "600000" "401000" "1001000")).drop 3 =
    [([], none), ([], none), ([], none),
     ([⟨"workers", "v", ["eval", "J", "x"]⟩, ⟨"monitor", "recodex-monitor", ["J", "ABORTED"]⟩], none),
     ([⟨"workers", "w", ["intro"]⟩], none), ([], some (.exn .invalidArgument))] := by decide +kernel

/-- **C119, the interval too.** If only the times reported are given in a finer unit, it can be
    observed. -/
theorem C119_interval_needed : ∃ (a : HConfig) (ms ms' : List Msg),
    List.Forall₂ (Rescaled 1000) ms ms' ∧ observed Single a env0 ms ≠ observed Single a env0 ms' :=
  ⟨cfgMilli, silence "6" "4" "10", silence "6000" "4000" "10000",
    silence_units (X := 6) (Y := 4) (Z := 10)
      ⟨(stoll_iff _ _).1 rfl, (stoll_iff _ _).1 rfl, (stoll_iff _ _).1 rfl⟩
      ⟨(stoll_iff _ _).1 rfl, (stoll_iff _ _).1 rfl, (stoll_iff _ _).1 rfl⟩, by decide +kernel⟩

end Broker
