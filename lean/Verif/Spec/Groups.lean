import Verif.Spec.Capability
import Verif.Spec.Protocol

/-!
# Workers that introduce themselves with other hardware groups
-/

namespace Broker.Spec

/-- A request asks for hardware groups with the values `V` only; other messages ask for none. -/
def AsksGroups (V : String → Prop) (m : Msg) : Prop :=
  ∀ i j fs, m = ⟨"clients", i, "eval" :: j :: fs⟩ →
    ∀ x ∈ headerFrames fs, frameKey x = "hwgroup" → V (frameValue x)

/-- Each of the values `V` allows both groups or none of them. -/
def SameGroup (V : String → Prop) (g g' : String) : Prop :=
  ∀ v, V v → (IsAlternative g v ↔ IsAlternative g' v)

/-- Two messages to the broker that are the same except for the hardware group of a worker that
    introduces itself.  Requests do not tell the two groups apart. -/
inductive Regrouped (V : String → Prop) : Msg → Msg → Prop
  | other (m : Msg) (h : ¬ (m.key = "workers" ∧ m.data.head? = some "init")) (ha : AsksGroups V m) :
    Regrouped V m m
  | short (i : String) : Regrouped V ⟨"workers", i, ["init"]⟩ ⟨"workers", i, ["init"]⟩
  | intro (i : String) {g g' : String} (rest : List String) (h : SameGroup V g g') :
    Regrouped V ⟨"workers", i, "init" :: g :: rest⟩ ⟨"workers", i, "init" :: g' :: rest⟩

end Broker.Spec
