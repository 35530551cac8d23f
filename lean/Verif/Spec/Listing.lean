import Verif.Spec.Capability
import Verif.Spec.Protocol
import Verif.Spec.Titles

/-!
# Introductions of workers with the headers listed in another way
-/

namespace Broker.Spec

/-- The same values under every name, in the same order. -/
def SameDeclared (hs ks : List String) : Prop := ∀ k, declared k hs = declared k ks

/-- A way of listing headers (frames that are not empty): it drops no value and adds none, and two lists with different values (or
    with the values of a name in another order) remain different. -/
structure Listing (f : List String → List String) : Prop where
  mem : ∀ hs, (∀ x ∈ hs, x ≠ "") → ∀ k v, v ∈ declared k (f hs) ↔ v ∈ declared k hs
  same : ∀ hs ks, (∀ x ∈ hs, x ≠ "") → (∀ x ∈ ks, x ≠ "") →
    (SameDeclared (f hs) (f ks) ↔ SameDeclared hs ks)

/-- Two messages to the broker that are the same except for the headers of a worker that introduces
    itself: they are listed as `f` tells for this worker, and headers with different names may be in any order. -/
inductive Relisted (f : String → List String → List String) : Msg → Msg → Prop
  | other (m : Msg) (h : ¬ (m.key = "workers" ∧ m.data.head? = some "init")) : Relisted f m m
  | short (i : String) : Relisted f ⟨"workers", i, ["init"]⟩ ⟨"workers", i, ["init"]⟩
  | intro (i g : String) {hs hs' t e : List String} (hh : ∀ x ∈ hs, x ≠ "") (hh' : ∀ x ∈ hs', x ≠ "")
    (hn : Numeric hs) (h : SameDeclared hs' (f i hs)) (ht : Details t e) :
    Relisted f ⟨"workers", i, "init" :: g :: (hs ++ t)⟩ ⟨"workers", i, "init" :: g :: (hs' ++ t)⟩

end Broker.Spec
