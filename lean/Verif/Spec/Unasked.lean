import Verif.Spec.Listing

/-!
# Headers of workers that no client asks for
-/

namespace Broker.Spec

/-- A way of listing headers (frames that are not empty) that keeps the values of the names `N`; other
    values may be added or dropped.  Two lists with different values remain different. -/
structure ListingFor (N : String → Prop) (f : List String → List String) : Prop where
  mem : ∀ hs, (∀ x ∈ hs, x ≠ "") → ∀ k, N k → ∀ v, v ∈ declared k (f hs) ↔ v ∈ declared k hs
  same : ∀ hs ks, (∀ x ∈ hs, x ≠ "") → (∀ x ∈ ks, x ≠ "") →
    (SameDeclared (f hs) (f ks) ↔ SameDeclared hs ks)

/-- A request asks for headers with the names `N` only; other messages ask for nothing. -/
def AsksOnly (N : String → Prop) (m : Msg) : Prop :=
  ∀ i j fs, m = ⟨"clients", i, "eval" :: j :: fs⟩ →
    ∀ x ∈ headerFrames fs, isMeta x = false → N (frameKey x)

/-- Two messages to the broker that are the same except for the headers of a worker that introduces
    itself: they are listed as `f` tells for this worker.  Requests ask for the names `N` only. -/
inductive RelistedFor (N : String → Prop) (f : String → List String → List String) : Msg → Msg → Prop
  | other (m : Msg) (h : ¬ (m.key = "workers" ∧ m.data.head? = some "init")) (ha : AsksOnly N m) :
    RelistedFor N f m m
  | short (i : String) : RelistedFor N f ⟨"workers", i, ["init"]⟩ ⟨"workers", i, ["init"]⟩
  | intro (i g : String) {hs hs' t e : List String} (hh : ∀ x ∈ hs, x ≠ "") (hh' : ∀ x ∈ hs', x ≠ "")
    (hn : Numeric hs) (hn' : Numeric hs') (h : SameDeclared hs' (f i hs)) (ht : Details t e) :
    RelistedFor N f ⟨"workers", i, "init" :: g :: (hs ++ t)⟩ ⟨"workers", i, "init" :: g :: (hs' ++ t)⟩

/-- Two messages to the broker that are the same except that a worker that introduces itself declares
    the headers `more` in addition. -/
inductive WithMore (more : String → List String) : Msg → Msg → Prop
  | other (m : Msg) (h : ¬ (m.key = "workers" ∧ m.data.head? = some "init")) : WithMore more m m
  | short (i : String) : WithMore more ⟨"workers", i, ["init"]⟩ ⟨"workers", i, ["init"]⟩
  | intro (i g : String) {hs t e : List String} (hh : ∀ x ∈ hs, x ≠ "") (hn : Numeric hs)
    (ht : Details t e) :
    WithMore more ⟨"workers", i, "init" :: g :: (hs ++ t)⟩
      ⟨"workers", i, "init" :: g :: (hs ++ more i ++ t)⟩

/-- Two messages to the broker that are the same except for the headers of a worker that introduces
    itself: it declares the same values under the names `N`.  Requests ask for the names `N` only. -/
inductive SameAsked (N : String → Prop) : Msg → Msg → Prop
  | other (m : Msg) (h : ¬ (m.key = "workers" ∧ m.data.head? = some "init")) (ha : AsksOnly N m) :
    SameAsked N m m
  | short (i : String) : SameAsked N ⟨"workers", i, ["init"]⟩ ⟨"workers", i, ["init"]⟩
  | intro (i g : String) {hs hs' t e : List String} (hh : ∀ x ∈ hs, x ≠ "") (hh' : ∀ x ∈ hs', x ≠ "")
    (hn : Numeric hs) (hn' : Numeric hs')
    (h : ∀ k, N k → ∀ v, v ∈ declared k hs' ↔ v ∈ declared k hs) (ht : Details t e) :
    SameAsked N ⟨"workers", i, "init" :: g :: (hs ++ t)⟩ ⟨"workers", i, "init" :: g :: (hs' ++ t)⟩

/-- Two introductions of a worker declare the same headers in one of two histories exactly if they do in
    the other one. -/
def SameRepeats (ms ms' : List Msg) : Prop :=
  ∀ i g1 g1' g2 g2' hs hs' ks ks',
    (⟨"workers", i, "init" :: g1 :: hs⟩, ⟨"workers", i, "init" :: g1' :: hs'⟩) ∈ ms.zip ms' →
    (⟨"workers", i, "init" :: g2 :: ks⟩, ⟨"workers", i, "init" :: g2' :: ks'⟩) ∈ ms.zip ms' →
    (SameDeclared hs ks ↔ SameDeclared hs' ks')

end Broker.Spec
